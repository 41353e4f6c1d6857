import Verif.Spec.Grammar
/-!
# Specification: the language of an arbitrary factory

As `Spec.Grammar`, but the type that stands under an identifier is whatever the factory has registered there: any type of
the library, and payloads with user code.
-/
namespace Verif.Spec
variable {P : Type}

/-- The tags a factory makes carry the id it was asked for, and under the implicit ids 0 to 15 it makes the types of the
standard, if any.  The explicit ids are free: any type, payloads included, may stand under any of them. -/
structure Regular (e : Engine P) : Prop where
  own : ∀ id t₀, e.createTag id = .ok (some t₀) → t₀.id = id
  implicit : ∀ id t₀, e.createTag id = .ok (some t₀) → id.toNat ≤ 15 → standardId t₀.kind = some id.toNat

/-- The user's code, given the payload `p₀` and exactly the bytes `v` to read, makes the payload `p` and leaves nothing
unread; nested tags are read by the factory. -/
def PayloadReads [TagPayload P] [Env] (e : Engine P) (p₀ p : P) (v : Bytes) : Prop :=
  ∃ r, RProg.run (Factory.methods e) (TagPayload.deserialize p₀ v.length) (p₀, ByteArrayReader.new v) = (.ok (), (p, r)) ∧
    r.available = 0

/-- The bytes are a value of a payload `t`, read into the `t₀` the factory has made. -/
def PayloadForm [TagPayload P] [Env] (e : Engine P) (t₀ t : Tag P) (v : Bytes) : Prop :=
  ∃ id p₀ p, t₀ = .atom (.payload id p₀) ∧ t = .atom (.payload id p) ∧ PayloadReads e p₀ p v

/-- The bytes of a tag with at most `depth` levels: id, length unless the id is implicit, value. -/
def CustomFormAt [TagPayload P] [Env] (M : MapMaking) (e : Engine P) : Nat → Tag P → Bytes → Prop
  | 0, _, _ => False
  | depth + 1, t, bs => ∃ t₀ h v, e.createTag t.id = .ok (some t₀) ∧ t₀.kind = t.kind ∧ IsILInt h t.id.toNat ∧
      (ValueForm M (CustomFormAt M e depth) t v ∨ PayloadForm e t₀ t v) ∧ v.length ≤ maxValue ∧
      (t.id.toNat ≤ 15 ∧ bs = h ++ v ∨ 16 ≤ t.id.toNat ∧ ∃ l, IsILInt l v.length ∧ bs = h ++ l ++ v)

/-- The bytes stand for the tag, in the language of the factory. -/
def CustomForm [TagPayload P] [Env] (e : Engine P) (t : Tag P) (bs : Bytes) : Prop :=
  ∃ depth, CustomFormAt (fun _ => Latest) e depth t bs

/-- The factory `e` of a relay, beside the factory `E` of the receiver: for every id for which the receiver has a type the
relay either has the same type, from the library, or makes a raw tag (as a factory that is not strict does for an explicit
id it does not know). -/
def RelayFor (e E : Engine P) : Prop :=
  ∀ id t₀, E.createTag id = .ok (some t₀) → ∃ t₁, e.createTag id = .ok (some t₁) ∧
    (t₁.kind = t₀.kind ∧ t₀.kind ≠ .payload ∨ 16 ≤ id.toNat ∧ t₁.kind = .raw)

/-- The factory makes a raw tag for the (explicit) id of the tag. -/
def Hidden [TagPayload P] (e : Engine P) (u : Tag P) : Prop :=
  16 ≤ u.id.toNat ∧ (∃ t₁, e.createTag u.id = .ok (some t₁) ∧ t₁.kind = .raw ∧ t₁.id = u.id) ∧ (encValue u).length ≤ maxValue

/-- `Seen e u t`: `u` is `t` or nested in it with only tags around it whose types the factory knows. -/
inductive Seen [TagPayload P] [Env] (e : Engine P) : Tag P → Tag P → Prop where
  | refl (t) : Seen e t t
  | seq {u v id ts} : SupportedHere e (.seq id ts) → v ∈ ts → Seen e u v → Seen e u (.seq id ts)
  | array {u v id ts} : SupportedHere e (.array id ts) → v ∈ ts → Seen e u v → Seen e u (.array id ts)
  | dict {u k v id es} : SupportedHere e (.dict id es) → (k, v) ∈ es → Seen e u v → Seen e u (.dict id es)

/-- Reads a tag and writes it again. -/
def passOn [TagPayload P] [Env] (e : Engine P) (bs : Bytes) : Res TagErr Bytes := do
  let u ← Factory.fromBytes e bs
  u.toBytes

/-- One relay after another. -/
def passAlong [TagPayload P] [Env] : List (Engine P) → Bytes → Res TagErr Bytes
  | [], bs => pure bs
  | e :: es, bs => do
    let w ← passOn e bs
    passAlong es w

end Verif.Spec
