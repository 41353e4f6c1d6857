import Verif.Model.ReadCode
/-!
# Code that converts

The code of a user of the library that reads from a reader and writes to a writer as it goes: filters, copies,
converters of formats.
-/
namespace Verif

/-- One thing to write. -/
inductive Out (P : Type) where
  /-- `Writer::write`, /repo/src/io/mod.rs:171. -/
  | byte (b : Byte)
  /-- `Writer::write_all`, /repo/src/io/mod.rs:184-189. -/
  | all (bs : Bytes)
  /-- `serialize_ilint`, /repo/src/tags/serialization/mod.rs:316-350,416. -/
  | ilint (v : UInt64)
  /-- `serialize_signed_ilint`, /repo/src/tags/serialization/mod.rs:521-555. -/
  | signedILInt (v : Int64)
  /-- `serialize_string_tag_from_value`, /repo/src/tags/standard/explicit/mod.rs:256-262. -/
  | stringTag (s : String)
  /-- `ILTag::serialize`, /repo/src/tags/mod.rs:230-236. -/
  | tag (t : Tag P)
  /-- `ILTag::serialize_value`, /repo/src/tags/mod.rs:217. -/
  | value (t : Tag P)

/-- Writes it. -/
def Out.run {P ω : Type} [TagPayload P] [Writer ω] : Out P → Act TagErr ω Unit
  | .byte b => tagIo (Writer.write b)
  | .all bs => tagIo (Writer.writeAll bs)
  | .ilint v => Ser.serializeILInt v
  | .signedILInt v => Ser.serializeSignedILInt v
  | .stringTag s => serializeStringTag s
  | .tag t => t.serialize
  | .value t => t.serializeValue

/-- Code over a reader and a writer that returns a value of type `α`: it reads with any code of `ReadCode`, goes on
depending on what was read, and writes.  It gives up on the first failing call, as `?` does. -/
inductive ConvCode (P : Type) (α : Type) : Type 1 where
  /-- Returns, or fails with an error of its own. -/
  | done (r : Res TagErr α) : ConvCode P α
  /-- Reads something. -/
  | get {β : Type} (c : ReadCode P β) (k : β → ConvCode P α) : ConvCode P α
  /-- Writes something. -/
  | put (x : Out P) (k : ConvCode P α) : ConvCode P α

/-- A call on the writer, which is the first component. -/
def onWriter {ε ω σ α : Type} (x : Act ε ω α) : Act ε (ω × σ) α := fun p =>
  match x p.1 with
  | (r, w) => (r, (w, p.2))

/-- Runs the code on a writer and a reader. -/
def ConvCode.run {P : Type} [TagPayload P] [Env] {α : Type} (ω σ : Type) [Writer ω] [Reader σ] :
    ConvCode P α → Act TagErr (ω × σ) α
  | .done r => Act.lift r
  | .get c k => do (k (← onReader (c.run σ))).run ω σ
  | .put x k => do onWriter x.run; k.run ω σ

end Verif
