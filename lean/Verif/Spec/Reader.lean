import Verif.Model.Io
/-!
# Specification: what it means for a reader to hold a byte string

`View σ` says when a reader in some state behaves as "the byte string `bs` is still to be read, then an error":
reading takes the next bytes, and asking for more than is left fails with an error satisfying `E`.
A theorem quantified over all `View`s holds for every well-behaved reader; instances are given for the readers
of the crate.
-/
namespace Verif.Spec

structure View (σ : Type) [Reader σ] where
  /-- The reader in state `s` still holds exactly the bytes `bs`. -/
  R : σ → Bytes → Prop
  /-- The errors this reader can report when it has too few bytes. -/
  E : IoErr → Prop
  read_cons : ∀ {s b bs}, R s (b :: bs) → ∃ s', Reader.read s = (.ok b, s') ∧ R s' bs
  read_nil : ∀ {s}, R s [] → ∃ e s', Reader.read s = (.err e, s') ∧ E e
  readAll_ok : ∀ {s bs n}, R s bs → n ≤ bs.length →
    ∃ s', Reader.readAll n s = (.ok (bs.take n), s') ∧ R s' (bs.drop n)
  readAll_short : ∀ {s bs n}, R s bs → bs.length < n → ∃ e s', Reader.readAll n s = (.err e, s') ∧ E e

/-- The same for the skip operations: they drop exactly the bytes, or fail. -/
structure SkipView (σ : Type) [Reader σ] extends View σ where
  skip_ok : ∀ {s bs n}, R s bs → n ≤ bs.length → ∃ s', Reader.skip n s = (.ok (), s') ∧ R s' (bs.drop n)
  skip_short : ∀ {s bs n}, R s bs → bs.length < n → ∃ e s', Reader.skip n s = (.err e, s')
  skipU64_ok : ∀ {s bs n}, R s bs → n.toNat ≤ bs.length →
    ∃ s', Reader.skipU64 n s = (.ok (), s') ∧ R s' (bs.drop n.toNat)
  skipU64_short : ∀ {s bs n}, R s bs → bs.length < n.toNat → ∃ e s', Reader.skipU64 n s = (.err e, s')

/-- The reader is consistent with exactly one byte string: what it holds is determined by its state. -/
theorem View.unique {σ : Type} [Reader σ] (V : View σ) {s : σ} {bs bs' : Bytes}
    (h : V.R s bs) (h' : V.R s bs') : bs = bs' := by
  rcases Nat.lt_trichotomy bs.length bs'.length with hl | hl | hl
  · obtain ⟨e, s1, h1, -⟩ := V.readAll_short h hl
    obtain ⟨s2, h2, -⟩ := V.readAll_ok h' (Nat.le_refl _)
    rw [h1] at h2; simp at h2
  · obtain ⟨s1, h1, -⟩ := V.readAll_ok h (Nat.le_refl _)
    obtain ⟨s2, h2, -⟩ := V.readAll_ok h' (Nat.le_refl _)
    rw [hl] at h1
    rw [h1] at h2
    simp at h2
    have h3 := h2.1
    rwa [← hl, List.take_length] at h3
  · obtain ⟨e, s1, h1, -⟩ := V.readAll_short h' hl
    obtain ⟨s2, h2, -⟩ := V.readAll_ok h (Nat.le_refl _)
    rw [h1] at h2; simp at h2

/-- What the author of a reader promises about `read` alone: it delivers the bytes held one by one, then fails. -/
structure ByteView (σ : Type) [ReadByte σ] where
  /-- The type in state `s` still holds exactly the bytes `bs`. -/
  R : σ → Bytes → Prop
  /-- The errors reported at the end of the data. -/
  E : IoErr → Prop
  next_cons : ∀ {s b bs}, R s (b :: bs) → ∃ s', ReadByte.next s = (.ok b, s') ∧ R s' bs
  next_nil : ∀ {s}, R s [] → ∃ e s', ReadByte.next s = (.err e, s') ∧ E e

/-- Successful calls of `read`, one after another, delivering the given bytes. -/
inductive Reads {σ : Type} [ReadByte σ] : σ → Bytes → σ → Prop where
  | nil (s) : Reads s [] s
  | cons {s b s₁ bs s₂} : ReadByte.next s = (.ok b, s₁) → Reads s₁ bs s₂ → Reads s (b :: bs) s₂

end Verif.Spec
