import Verif.Model.Factory
/-!
# Code that reads

The code of a user of the library that is given a reader, `fn parse<R: Reader + ?Sized>(reader: &mut R) -> Result<..>`:
it calls the reader and the functions of the library that read from one, gives up on the first failing call, as `?`
does, and otherwise goes on as it likes, depending on all it has read.
-/
namespace Verif

/-- Code over a reader that returns a value of type `α`.  Each call is followed by what is done with its result.
Simplification: no call of `skip` or `skip_u64`, which some readers answer without looking at their data, and no handling
of errors. -/
inductive ReadCode (P : Type) : Type → Type 1 where
  /-- Returns, or fails with an error of its own. -/
  | done {α : Type} (r : Res TagErr α) : ReadCode P α
  /-- `Reader::read`, /repo/src/io/mod.rs:80. -/
  | read {α : Type} (k : Byte → ReadCode P α) : ReadCode P α
  /-- `Reader::read_all` into a buffer of `n` bytes, /repo/src/io/mod.rs:94. -/
  | readAll {α : Type} (n : Nat) (k : Bytes → ReadCode P α) : ReadCode P α
  /-- `deserialize_ilint`, /repo/src/tags/serialization/mod.rs:104-135,428. -/
  | ilint {α : Type} (k : UInt64 → ReadCode P α) : ReadCode P α
  /-- `deserialize_signed_ilint`, /repo/src/tags/serialization/mod.rs:482-515. -/
  | signedILInt {α : Type} (k : Int64 → ReadCode P α) : ReadCode P α
  /-- `deserialize_bytes` of `n` bytes, /repo/src/tags/serialization/mod.rs:223-227,454-456. -/
  | bytes {α : Type} (n : Nat) (k : Bytes → ReadCode P α) : ReadCode P α
  /-- `deserialize_string_tag_from_value`, /repo/src/tags/standard/explicit/mod.rs:277-310. -/
  | stringTag {α : Type} (k : String → ReadCode P α) : ReadCode P α
  /-- `ILTagFactory::deserialize` of any factory, /repo/src/tags/mod.rs:462. -/
  | tag {α : Type} (e : Engine P) (k : Tag P → ReadCode P α) : ReadCode P α
  /-- `ILTagFactory::deserialize_into` of any factory on the tag `t`, /repo/src/tags/mod.rs:477. -/
  | into {α : Type} (e : Engine P) (t : Tag P) (k : Tag P → ReadCode P α) : ReadCode P α
  /-- `ILTag::deserialize_value` of the tag `t` with any factory and the value size `n`, /repo/src/tags/mod.rs:250. -/
  | value {α : Type} (e : Engine P) (n : Nat) (t : Tag P) (k : Tag P → ReadCode P α) : ReadCode P α
  /-- Other code on a `LimitedReader::new(reader, n)`, /repo/src/io/mod.rs:218-223; goes on with what that code returned and
  with `available()`, the bytes it left of the limit. -/
  | within {α β : Type} (n : Nat) (body : ReadCode P β) (k : β → Nat → ReadCode P α) : ReadCode P α

/-- A call that fills the tag `t`; returns the filled tag. -/
def fillWith {σ τ : Type} (t : τ) (x : Act TagErr (τ × σ) Unit) : Act TagErr σ τ := fun s =>
  match x (t, s) with
  | (r, (t', s')) => (r.map fun _ => t', s')

/-- The code on a `LimitedReader::new(reader, n)`; returns its result and the bytes left of the limit. -/
def limitedTo {σ β : Type} (n : Nat) (x : Act TagErr (Limited σ) β) : Act TagErr σ (β × Nat) := fun s =>
  match x ⟨s, n⟩ with
  | (r, l) => (r.map fun b => (b, l.available), l.source)

/-- Runs the code on a reader. -/
def ReadCode.run {P : Type} [TagPayload P] [Env] : {α : Type} → ReadCode P α → (σ : Type) → [Reader σ] → Act TagErr σ α
  | _, .done r, _, _ => Act.lift r
  | _, .read k, σ, _ => do (k (← tagIo Reader.read)).run σ
  | _, .readAll n k, σ, _ => do (k (← tagIo (Reader.readAll n))).run σ
  | _, .ilint k, σ, _ => do (k (← Ser.deserializeILInt)).run σ
  | _, .signedILInt k, σ, _ => do (k (← Ser.deserializeSignedILInt)).run σ
  | _, .bytes n k, σ, _ => do (k (← Ser.deserializeBytes n)).run σ
  | _, .stringTag k, σ, _ => do (k (← deserializeStringTag)).run σ
  | _, .tag e k, σ, _ => do (k (← Factory.deserialize e σ)).run σ
  | _, .into e t k, σ, _ => do (k (← fillWith t (Factory.deserializeInto e))).run σ
  | _, .value e n t k, σ, _ => do (k (← fillWith t (Tag.deserializeValue (Factory.methods e) n t))).run σ
  | _, .within n body k, σ, _ => do
    let r ← limitedTo n (body.run (Limited σ))
    (k r.1 r.2).run σ

end Verif
