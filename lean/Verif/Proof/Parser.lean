import Verif.Spec.Reader
import Verif.Proof.ILInt
/-!
# Pure parsers and their relation with reader actions

A proof device: `Parser α` is a pure function on the remaining bytes.  `Sim V m p` says that the action `m` on a
reader holding `bs` behaves as `p bs`.
-/
namespace Verif
open Spec

inductive PRes (α : Type) where
  | ok (a : α) (rest : Bytes)
  /-- Not enough bytes: an i/o error whose kind depends on the reader. -/
  | short
  | fail (e : TagErr)
  | panic
  | diverge

def Parser (α : Type) : Type := Bytes → PRes α

namespace Parser
variable {α β γ : Type}

protected def pure (a : α) : Parser α := fun bs => .ok a bs
protected def bind (p : Parser α) (f : α → Parser β) : Parser β := fun bs =>
  match p bs with
  | .ok a rest => f a rest
  | .short => .short
  | .fail e => .fail e
  | .panic => .panic
  | .diverge => .diverge

instance : Monad Parser where
  pure := Parser.pure
  bind := Parser.bind

def fail (e : TagErr) : Parser α := fun _ => .fail e
def panic : Parser α := fun _ => .panic
def diverge : Parser α := fun _ => .diverge
def lift (r : Res TagErr α) : Parser α := fun bs =>
  match r with
  | .ok a => .ok a bs
  | .err e => .fail e
  | .panic => .panic
  | .diverge => .diverge

@[simp] theorem pure_apply (a : α) (bs : Bytes) : (pure a : Parser α) bs = .ok a bs := rfl
@[simp] theorem fail_apply (e : TagErr) (bs : Bytes) : (fail e : Parser α) bs = .fail e := rfl
@[simp] theorem panic_apply (bs : Bytes) : (panic : Parser α) bs = .panic := rfl
@[simp] theorem diverge_apply (bs : Bytes) : (diverge : Parser α) bs = .diverge := rfl
@[simp] theorem lift_ok (a : α) : lift (.ok a) = (pure a : Parser α) := rfl
@[simp] theorem lift_err (e : TagErr) : lift (.err e) = (fail e : Parser α) := rfl
theorem bind_apply (p : Parser α) (f : α → Parser β) (bs : Bytes) :
    (p >>= f) bs = match p bs with
      | .ok a rest => f a rest
      | .short => .short
      | .fail e => .fail e
      | .panic => .panic
      | .diverge => .diverge := rfl
theorem bind_ok {p : Parser α} {f : α → Parser β} {bs rest : Bytes} {a : α} (h : p bs = .ok a rest) :
    (p >>= f) bs = f a rest := by rw [bind_apply, h]
theorem bind_eq_ok {p : Parser α} {f : α → Parser β} {bs rest : Bytes} {b : β} :
    (p >>= f) bs = .ok b rest ↔ ∃ a r, p bs = .ok a r ∧ f a r = .ok b rest := by
  rw [bind_apply]
  cases p bs with
  | ok a r =>
    constructor
    · intro h; exact ⟨a, r, rfl, h⟩
    · rintro ⟨a', r', h, h'⟩
      simp at h
      obtain ⟨rfl, rfl⟩ := h
      exact h'
  | _ => simp
@[simp] theorem pure_bind (a : α) (f : α → Parser β) : ((pure a : Parser α) >>= f) = f a := rfl
@[simp] theorem bind_assoc (p : Parser α) (f : α → Parser β) (g : β → Parser γ) :
    ((p >>= f) >>= g) = p >>= fun a => f a >>= g := by
  funext bs
  simp only [bind_apply]
  cases p bs <;> rfl
@[simp] theorem bind_pure (p : Parser α) : (p >>= fun a => (pure a : Parser α)) = p := by
  funext bs
  simp only [bind_apply]
  cases p bs <;> rfl

/-- One byte. -/
def byte : Parser Byte
  | [] => .short
  | b :: bs => .ok b bs

/-- Exactly `n` bytes. -/
def take (n : Nat) : Parser Bytes := fun bs =>
  if n ≤ bs.length then .ok (bs.take n) (bs.drop n) else .short

/-- A limited region of `n` bytes.  The body is told by how many bytes the input is too short for the region. -/
def limited (n : Nat) (p : Nat → Parser α) : Parser α := fun bs =>
  if n ≤ bs.length then
    match p 0 (bs.take n) with
    | .ok a rest => .ok a (rest ++ bs.drop n)
    | .short => .short
    | .fail e => .fail e
    | .panic => .panic
    | .diverge => .diverge
  else p (n - bs.length) bs

/-- Everything of the limited region has been read. -/
def ensureEmpty (slack : Nat) : Parser Unit := fun bs =>
  if bs.length + slack = 0 then .ok () bs else .fail .corruptedData

/-- `deserialize_ilint`. -/
def ilint : Parser UInt64 := do
  let h ← byte
  if ILInt.decodedSize h = 1 then pure h.toUInt64
  else do
    let body ← take (ILInt.decodedSize h - 1)
    lift ((ILInt.decodeBody body).mapErr fun _ => .ioError .corruptedData)

end Parser

/-! ### Simulation -/

/-- What `PRes` promises about an outcome. -/
def Matches {σ α : Type} [Reader σ] (V : View σ) (out : Res TagErr α × σ) : PRes α → Prop
  | .ok a rest => ∃ s', out = (.ok a, s') ∧ V.R s' rest
  | .short => ∃ e s', out = (.err (.ioError e), s') ∧ (V.E e ∨ e = .unableToReadData)
  | .fail e => ∃ s', out = (.err e, s')
  | .panic => ∃ s', out = (.panic, s')
  | .diverge => ∃ s', out = (.diverge, s')

/-- The action `m` behaves as the parser `p`. -/
def Sim {σ α : Type} [Reader σ] (V : View σ) (m : Act TagErr σ α) (p : Parser α) : Prop :=
  ∀ s bs, V.R s bs → Matches V (m s) (p bs)

/-- The same for actions that also update a value `τ`; the value is only described on success. -/
def MatchesS {σ τ : Type} [Reader σ] (V : View σ) (out : Res TagErr Unit × (τ × σ)) : PRes τ → Prop
  | .ok t rest => ∃ s', out = (.ok (), (t, s')) ∧ V.R s' rest
  | .short => ∃ e t' s', out = (.err (.ioError e), (t', s')) ∧ (V.E e ∨ e = .unableToReadData)
  | .fail e => ∃ t' s', out = (.err e, (t', s'))
  | .panic => ∃ t' s', out = (.panic, (t', s'))
  | .diverge => ∃ t' s', out = (.diverge, (t', s'))

def SimS {σ τ : Type} [Reader σ] (V : View σ) (m : Act TagErr (τ × σ) Unit) (p : τ → Parser τ) : Prop :=
  ∀ t s bs, V.R s bs → MatchesS V (m (t, s)) (p t bs)

section
variable {σ α β τ τ' : Type} [Reader σ] {V : View σ}

theorem Sim.pure (a : α) : Sim V (pure a) (pure a) := fun s _ h => ⟨s, rfl, h⟩
theorem Sim.fail (e : TagErr) : Sim V (Act.fail e : Act TagErr σ α) (Parser.fail e) := fun s _ _ => ⟨s, rfl⟩
theorem Sim.panic : Sim V (Act.panic : Act TagErr σ α) Parser.panic := fun s _ _ => ⟨s, rfl⟩
theorem Sim.diverge : Sim V (Act.diverge : Act TagErr σ α) Parser.diverge := fun s _ _ => ⟨s, rfl⟩
theorem Sim.lift (r : Res TagErr α) : Sim V (Act.lift r) (Parser.lift r) := fun s bs h => by
  cases r with
  | ok a => exact ⟨s, rfl, h⟩
  | err e => exact ⟨s, rfl⟩
  | panic => exact ⟨s, rfl⟩
  | diverge => exact ⟨s, rfl⟩

theorem Sim.bind {m : Act TagErr σ α} {p : Parser α} {k : α → Act TagErr σ β} {q : α → Parser β}
    (h : Sim V m p) (hk : ∀ a, Sim V (k a) (q a)) : Sim V (m >>= k) (p >>= q) := by
  intro s bs hR
  have := h s bs hR
  rw [Parser.bind_apply]
  cases hp : p bs with
  | ok a rest =>
    rw [hp] at this
    obtain ⟨s', hm, hR'⟩ := this
    rw [Act.bind_ok hm]
    exact hk a s' rest hR'
  | short =>
    rw [hp] at this
    obtain ⟨e, s', hm, he⟩ := this
    exact ⟨e, s', Act.bind_err hm, he⟩
  | fail e =>
    rw [hp] at this
    obtain ⟨s', hm⟩ := this
    exact ⟨s', Act.bind_err hm⟩
  | panic =>
    rw [hp] at this
    obtain ⟨s', hm⟩ := this
    exact ⟨s', Act.bind_panic hm⟩
  | diverge =>
    rw [hp] at this
    obtain ⟨s', hm⟩ := this
    exact ⟨s', Act.bind_diverge hm⟩

theorem Sim.byte : Sim V (tagIo Reader.read) Parser.byte := by
  intro s bs h
  cases bs with
  | nil =>
    obtain ⟨e, s', hr, he⟩ := V.read_nil h
    exact ⟨e, s', by simp [tagIo, Act.mapErr, hr, Res.mapErr], .inl he⟩
  | cons b bs =>
    obtain ⟨s', hr, h'⟩ := V.read_cons h
    exact ⟨s', by simp [tagIo, Act.mapErr, hr, Res.mapErr], h'⟩

theorem Sim.take (n : Nat) : Sim V (tagIo (Reader.readAll n)) (Parser.take n) := by
  intro s bs h
  unfold Parser.take
  by_cases hn : n ≤ bs.length
  · obtain ⟨s', hr, h'⟩ := V.readAll_ok h hn
    rw [if_pos hn]
    exact ⟨s', by simp [tagIo, Act.mapErr, hr, Res.mapErr], h'⟩
  · obtain ⟨e, s', hr, he⟩ := V.readAll_short (n := n) h (by omega)
    rw [if_neg hn]
    exact ⟨e, s', by simp [tagIo, Act.mapErr, hr, Res.mapErr], .inl he⟩

theorem Sim.map_take (n : Nat) (g : Bytes → α) {m : Act IoErr σ α}
    (hm : m = (do let t ← Reader.readAll n; Pure.pure (g t))) :
    Sim V (tagIo m) (Parser.take n >>= fun t => Pure.pure (g t)) := by
  subst hm
  simp only [tagIo, Act.mapErr_bind, Act.mapErr_pure]
  exact Sim.bind (Sim.take n) fun _ => Sim.pure _

omit [Reader σ] in
theorem decodeBody_mapErr (body : Bytes) :
    ((ILInt.decodeBody body).mapErr Data.readILIntErr).mapErr TagErr.ioError
      = (ILInt.decodeBody body).mapErr fun _ => .ioError .corruptedData := by
  by_cases hb : 1 ≤ body.length ∧ body.length ≤ 8
  · rw [ILInt.decodeBody_eq _ hb.1 hb.2]
    split <;> rfl
  · unfold ILInt.decodeBody
    rw [if_pos (by
      simp; by_cases hb0 : body = []
      · simp [hb0]
      · right; have := List.length_pos_iff.mpr hb0; omega)]
    rfl

/-- `deserialize_ilint` as reads in the tag error type. -/
theorem deserializeILInt_eq : (Ser.deserializeILInt : Act TagErr σ UInt64) = (do
    let h ← tagIo Reader.read
    if ILInt.decodedSize h = 1 then Pure.pure h.toUInt64
    else do
      let body ← tagIo (Reader.readAll (ILInt.decodedSize h - 1))
      Act.lift ((ILInt.decodeBody body).mapErr fun _ => .ioError .corruptedData)) := by
  simp only [Ser.deserializeILInt, Data.readILInt, ILInt.decode, tagIo, Act.mapErr_bind, Act.mapErr_mapErr,
    Act.mapErr_ite, Act.mapErr_pure, Act.mapErr_lift, Data.readILIntErr, decodeBody_mapErr]

theorem Sim.ilint : Sim V (Ser.deserializeILInt : Act TagErr σ UInt64) Parser.ilint := by
  rw [deserializeILInt_eq]
  refine Sim.bind Sim.byte fun h => ?_
  split
  · exact Sim.pure _
  · exact Sim.bind (Sim.take _) fun _ => Sim.lift _

theorem deserializeSignedILInt_eq : (Ser.deserializeSignedILInt : Act TagErr σ Int64) =
    (do let v ← Ser.deserializeILInt; Pure.pure (ILInt.decodeSign v)) := by
  simp only [Ser.deserializeSignedILInt, Ser.deserializeILInt, Data.readSignedILInt, Data.readILInt,
    ILInt.signedDecode, tagIo, Act.mapErr_bind, Act.mapErr_mapErr, Act.mapErr_pure]

theorem Sim.signedILInt : Sim V (Ser.deserializeSignedILInt : Act TagErr σ Int64)
    (Parser.ilint >>= fun v => Pure.pure (ILInt.decodeSign v)) := by
  rw [deserializeSignedILInt_eq]
  exact Sim.bind Sim.ilint fun _ => Sim.pure _

theorem Sim.alloc [Env] (unit count : Nat) : Sim V (Data.alloc unit count)
    (if unit * count ≤ Env.allocMax then Pure.pure () else Parser.panic) := by
  unfold Data.alloc
  split
  · exact Sim.pure _
  · exact Sim.panic

end
end Verif
