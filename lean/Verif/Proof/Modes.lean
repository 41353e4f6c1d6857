import Verif.Model.Modes
import Verif.Spec.Reported
import Verif.Proof.Size
/-!
# The two arithmetic modes
-/
namespace Verif
open Spec
variable {P : Type}

/-- The result `x`, or a panic of a checked build. -/
def Near {α : Type} (m : ArithMode) (r : Res TagErr α) (x : Res TagErr α) : Prop := r = x ∨ m = .checked ∧ r = .panic

namespace Near
variable {m : ArithMode} {α β : Type}

theorem rfl' {r : Res TagErr α} : Near m r r := .inl rfl

theorem bind {r : Res TagErr α} {x : α} {f : α → Res TagErr β} {y : Res TagErr β} (h : Near m r (.ok x))
    (hf : Near m (f x) y) : Near m (r >>= f) y := by
  rcases h with rfl | ⟨hm, rfl⟩
  · exact hf
  · exact .inr ⟨hm, rfl⟩

theorem add (a b : UInt64) : Near m (addU64 m a b) (.ok (a + b)) := by
  unfold addU64
  split
  · exact .inl rfl
  · cases m
    · exact .inr ⟨rfl, rfl⟩
    · exact .inl rfl

theorem sum {f : α → Res TagErr UInt64} {g : α → UInt64} (h : ∀ x, Near m (f x) (.ok (g x))) (l : List α) (a : UInt64) :
    Near m (sumM m f a l) (.ok (l.foldl (fun s x => s + g x) a)) := by
  induction l generalizing a with
  | nil => exact .inl rfl
  | cons x l ih => exact bind (h x) (bind (add a (g x)) (ih _))

theorem stringTag (s : String) : Near m (stringTagSizeM m s) (.ok (stringTagSize s)) := bind (add _ _) (add _ _)

theorem sizeFrom (id v : UInt64) : Near m (sizeFromM m id v) (.ok (Verif.sizeFrom id v)) := by
  unfold sizeFromM Verif.sizeFrom
  split
  · exact add _ _
  · exact bind (add _ _) (add _ _)

variable [TagPayload P]

theorem atom (a : Atom P) : Near m (a.valueSizeM m) (.ok a.valueSize) := by
  cases a with
  | bigDec id sc v => exact add _ _
  | ilintArray id v => exact sum (g := ilSize) (fun x => .inl rfl) _ _
  | oid id v => exact sum (g := ilSize) (fun x => .inl rfl) _ _
  | strDict id es =>
    exact bind (sum (g := fun e : String × String => stringTagSize e.1 + stringTagSize e.2)
      (fun e => bind (stringTag e.1) (bind (stringTag e.2) (add _ _))) es 0) (add _ _)
  | _ => exact .inl rfl

theorem valueSize (t : Tag P) : Near m (t.valueSizeM m) (.ok t.valueSize) := by
  have hlist : ∀ (ts : List (Tag P)) (a : UInt64), (∀ t ∈ ts, Near m (t.valueSizeM m) (.ok t.valueSize)) →
      Near m (Tag.sizeSumM m a ts) (.ok (Tag.sizeSum a ts)) := by
    intro ts
    induction ts with
    | nil => intro a _; exact .inl rfl
    | cons t ts ih =>
      intro a h
      exact bind (h t (by simp)) (bind (sizeFrom _ _) (bind (add _ _) (ih _ fun u hu => h u (by simp [hu]))))
  have hent : ∀ (es : List (String × Tag P)) (a : UInt64),
      (∀ k t, (k, t) ∈ es → Near m (t.valueSizeM m) (.ok t.valueSize)) →
      Near m (Tag.entriesSumM m a es) (.ok (Tag.entriesSum a es)) := by
    intro es
    induction es with
    | nil => intro a _; exact .inl rfl
    | cons e es ih =>
      obtain ⟨k, t⟩ := e
      intro a h
      exact bind (stringTag k) (bind (h k t (by simp)) (bind (sizeFrom _ _) (bind (add _ _) (bind (add _ _)
        (ih _ fun k u hu => h k u (by simp [hu]))))))
  induction t using Tag.ind with
  | atom a => exact atom a
  | seq id ts ih => exact hlist ts 0 ih
  | array id ts ih => exact bind (hlist ts 0 ih) (add _ _)
  | dict id es ih => exact bind (hent es 0 ih) (add _ _)

theorem size (t : Tag P) : Near m (t.sizeM m) (.ok t.size) := bind (valueSize t) (sizeFrom _ _)

end Near

/-- The same for programs that write. -/
def NearA {σ α : Type} (m : ArithMode) (A B : Act TagErr σ α) : Prop :=
  ∀ s, A s = B s ∨ m = .checked ∧ (A s).1 = .panic

namespace NearA
variable {m : ArithMode} {σ α β : Type}

theorem rfl' {A : Act TagErr σ α} : NearA m A A := fun _ => .inl rfl

theorem bind {A B : Act TagErr σ α} {f g : α → Act TagErr σ β} (h : NearA m A B) (hf : ∀ x, NearA m (f x) (g x)) :
    NearA m (A >>= f) (B >>= g) := by
  intro s
  rw [Act.bind_apply, Act.bind_apply]
  rcases h s with h | ⟨hm, h⟩
  · rw [h]
    rcases B s with ⟨r, s'⟩
    cases r with
    | ok x => exact hf x s'
    | _ => exact .inl rfl
  · rcases hA : A s with ⟨r, s'⟩
    rw [hA] at h
    cases h
    exact .inr ⟨hm, rfl⟩

variable {ω : Type} [Writer ω]

theorem wrap {id v : UInt64} {r : Res TagErr UInt64} {A B : Act TagErr ω Unit} (hr : Near m r (.ok v)) (h : NearA m A B) :
    NearA m (serializeWithM id r A) (Tag.serializeWith id v B) := by
  unfold serializeWithM Tag.serializeWith
  refine bind rfl' fun _ => ?_
  split
  · exact h
  · rcases hr with rfl | ⟨hm, rfl⟩
    · exact bind rfl' fun _ => h
    · exact fun s => .inr ⟨hm, rfl⟩

theorem entries {ss ss' : List (String × Act TagErr ω Unit)}
    (h : ∀ k, match HMap.get k ss, HMap.get k ss' with
      | none, none => True | some A, some B => NearA m A B | _, _ => False) (ks : List String) :
    NearA m (Tag.serializeEntries ss ks) (Tag.serializeEntries ss' ks) := by
  induction ks with
  | nil => exact rfl'
  | cons k ks ih =>
    unfold Tag.serializeEntries
    have hk := h k
    split at hk
    · simp only [*]; exact rfl'
    · simp only [*]
      exact bind rfl' fun _ => bind hk fun _ => ih
    · exact hk.elim

variable [TagPayload P]

theorem value (t : Tag P) : NearA m (t.serializeValueM m : Act TagErr ω Unit) t.serializeValue := by
  have hlist : ∀ ts : List (Tag P), (∀ t ∈ ts, NearA m (t.serializeValueM m : Act TagErr ω Unit) t.serializeValue) →
      NearA m (Tag.serializeSeqM m ts : Act TagErr ω Unit) (Tag.serializeSeq ts) := by
    intro ts
    induction ts with
    | nil => intro _; exact rfl'
    | cons t ts ih =>
      intro h
      exact bind (wrap (Near.valueSize t) (h t (by simp))) fun _ => ih fun u hu => h u (by simp [hu])
  have hent : ∀ es : List (String × Tag P),
      (∀ k t, (k, t) ∈ es → NearA m (t.serializeValueM m : Act TagErr ω Unit) t.serializeValue) →
      ∀ k, match HMap.get k (Tag.entrySerializersM m es : List (String × Act TagErr ω Unit)),
          HMap.get k (Tag.entrySerializers es) with
        | none, none => True | some A, some B => NearA m A B | _, _ => False := by
    intro es
    induction es with
    | nil => intro _ k; simp [Tag.entrySerializersM, Tag.entrySerializers, HMap.get]
    | cons e es ih =>
      obtain ⟨k', t⟩ := e
      intro h k
      have := ih (fun k u hu => h k u (by simp [hu])) k
      simp only [Tag.entrySerializersM, Tag.entrySerializers, HMap.get]
      by_cases hk : k' = k
      · simp only [hk, if_true]; exact wrap (Near.valueSize t) (h k' t (by simp))
      · simp only [hk, if_false]; exact this
  induction t using Tag.ind with
  | atom a => exact rfl'
  | seq id ts ih => exact hlist ts ih
  | array id ts ih => exact bind rfl' fun _ => hlist ts ih
  | dict id es ih => exact bind rfl' fun _ => entries (hent es ih) _

theorem serialize (t : Tag P) : NearA m (t.serializeM m : Act TagErr ω Unit) t.serialize :=
  wrap (Near.valueSize t) (value t)

end NearA
end Verif
