import Verif.Spec.Change
import Verif.Proof.Canonical
import Verif.Proof.Order
/-!
# Forms of the same length as the encoding
-/
namespace Verif
open Spec

/-- `x` is at least as long as `e`; if it is not longer it has the same bytes, under `D` in the same order. -/
def Snug (D : Prop) (x e : Bytes) : Prop := e.length ≤ x.length ∧ (x.length ≤ e.length → x.Perm e ∧ (D → x = e))

namespace Snug
variable {D : Prop}

theorem refl (x : Bytes) : Snug D x x := ⟨Nat.le_refl _, fun _ => ⟨.refl _, fun _ => rfl⟩⟩

theorem append {x y e f : Bytes} (h : Snug D x e) (h' : Snug D y f) : Snug D (x ++ y) (e ++ f) := by
  have h1 := h.1; have h2 := h'.1
  refine ⟨by simp only [List.length_append]; omega, fun hl => ?_⟩
  simp only [List.length_append] at hl
  have a := h.2 (by omega)
  have b := h'.2 (by omega)
  exact ⟨a.1.append b.1, fun d => by rw [a.2 d, b.2 d]⟩

theorem trans {x y z : Bytes} (h : Snug D x y) (h' : Snug D y z) : Snug D x z := by
  have h1 := h.1; have h2 := h'.1
  refine ⟨by omega, fun hl => ?_⟩
  have a := h.2 (by omega)
  have b := h'.2 (by omega)
  exact ⟨a.1.trans b.1, fun d => by rw [a.2 d, b.2 d]⟩

theorem ilint {c : Bytes} {n : Nat} (h : IsILInt c n) : Snug D c (Spec.ilint n) := by
  have := ILInt.ilint_shortest h
  refine ⟨this.1, fun hl => ?_⟩
  have h' := this.2 (by omega)
  exact ⟨h' ▸ .refl _, fun _ => h'⟩

theorem ilint_length {m n : Nat} (h : m ≤ n) (hn : n < 2 ^ 64) : (Spec.ilint m).length ≤ (Spec.ilint n).length := by
  rw [ILInt.length_ilint, ILInt.length_ilint]
  have := ilintExtra_mono h hn
  omega

/-- A number that counts what follows, and that. -/
theorem counted {c x e : Bytes} {m n : Nat} (hc : IsILInt c n) (hmn : m ≤ n) (hx : Snug D x e)
    (h : x.length ≤ e.length → n ≤ m) : Snug D (c ++ x) (Spec.ilint m ++ e) := by
  have h1 := (ilint (D := D) hc).1
  have h2 := ilint_length hmn hc.1
  have h3 := hx.1
  refine ⟨by simp only [List.length_append]; omega, fun hl => ?_⟩
  simp only [List.length_append] at hl
  have : n = m := by have := h (by omega); omega
  subst this
  exact (append (ilint hc) hx).2 (by simp only [List.length_append]; omega)

theorem listed {α : Type} {L : α → Bytes → Prop} {f : α → Bytes} :
    ∀ (as : List α) (x : Bytes), (∀ a ∈ as, ∀ x, L a x → Snug D x (f a)) → Listed L as x → Snug D x (as.flatMap f)
  | [], x, _, h => by have h : x = [] := h; subst h; exact refl _
  | a :: as, x, hL, ⟨y, z, e, h1, h2⟩ => by
    subst e
    rw [List.flatMap_cons]
    exact append (hL a (by simp) _ h1) (listed as z (fun b hb => hL b (by simp [hb])) h2)

theorem string {s : String} {x : Bytes} (h : StringForm s x) : Snug D x (Spec.stringTag s) := by
  obtain ⟨h, l, rfl, h1, h2, -⟩ := h
  rw [Look.stringTag_eq, List.append_assoc]
  exact append (ilint h1) (append (ilint h2) (refl _))

theorem split_subset {α : Type} : ∀ {es ws : List α}, es.Nodup → (∀ e ∈ es, e ∈ ws) → ∃ rest, ws.Perm (es ++ rest)
  | [], ws, _, _ => ⟨ws, .refl _⟩
  | e :: es, ws, hn, h => by
    obtain ⟨l, r, rfl⟩ := List.append_of_mem (h e (by simp))
    rw [List.nodup_cons] at hn
    obtain ⟨rest, hr⟩ := split_subset (es := es) (ws := l ++ r) hn.2 (fun a ha => by
      have := h a (by simp [ha])
      simp only [List.mem_append, List.mem_cons] at this ⊢
      rcases this with h | rfl | h
      · exact .inl h
      · exact absurd ha hn.1
      · exact .inr h)
    exact ⟨rest, List.perm_middle.trans (hr.cons e)⟩

theorem mapped {α : Type} {L : α → Bytes → Prop} {f : α → Bytes} {ws es : List (String × α)} {v : Bytes}
    (hL : Counted' (EntryForm L) ws v) (hl : Latest ws es) (hD : D → es.length ≤ 1)
    (hs : ∀ a x, L a x → Snug False x (f a)) (hs' : ∀ e ∈ es, ∀ x, L e.2 x → Snug D x (f e.2)) :
    Snug D v (Spec.ilint es.length ++ (sortByKey es).flatMap fun e => Spec.stringTag e.1 ++ f e.2) := by
  letI : Env := Props.bigEnv
  obtain ⟨c, x, rfl, hc, hL⟩ := hL
  have hx : Snug False x (ws.flatMap fun e => Spec.stringTag e.1 ++ f e.2) := by
    refine listed ws x ?_ hL
    rintro e - y ⟨k, w, rfl, hk, hw⟩
    exact append (string hk) (hs _ _ hw)
  obtain ⟨rest, hr⟩ := split_subset (nodup_of_nodup_keys hl.1) (ws := ws) (fun e he => by
    obtain ⟨l, r, rfl, -⟩ := (hl.2 e.1 e.2).mp he
    simp)
  have hst : ∀ s : String, 1 ≤ (Spec.stringTag s).length := fun s => by
    rw [Look.stringTag_eq]
    have := ilint_pos 17
    simp only [List.length_append]
    omega
  have hlr := hr.length_eq
  rw [List.length_append] at hlr
  have hperm : (ws.flatMap fun e => Spec.stringTag e.1 ++ f e.2).Perm
      (((sortByKey es).flatMap fun e => Spec.stringTag e.1 ++ f e.2) ++
        rest.flatMap fun e => Spec.stringTag e.1 ++ f e.2) := by
    rw [← List.flatMap_append]
    exact (hr.trans ((sortByKey_perm es).symm.append_right rest)).flatMap_right _
  have hpl := hperm.length_eq
  rw [List.length_append] at hpl
  have hrest : rest.length ≤ (rest.flatMap fun e => Spec.stringTag e.1 ++ f e.2).length :=
    length_le_flatMap_ge (fun e : String × α => Spec.stringTag e.1 ++ f e.2) (fun e => by
      have := hst e.1
      rw [List.length_append]; omega) rest
  have hxl := hx.1
  refine counted hc (by omega) ⟨by omega, fun hle => ?_⟩ (fun hle => by omega)
  have : rest = [] := List.length_eq_zero_iff.mp (by omega)
  subst this
  simp only [List.flatMap_nil, List.append_nil] at hperm hr
  refine ⟨(hx.2 (by omega)).1.trans hperm, fun d => ?_⟩
  have h1 := hD d
  have hws : ws = sortByKey es := by
    have hp := hr.trans (sortByKey_perm es).symm
    have hsl : (sortByKey es).length ≤ 1 := by rw [(sortByKey_perm es).length_eq]; exact h1
    match hse : sortByKey es, hsl with
    | [], _ => rw [hse] at hp; exact hp.eq_nil
    | [a], _ => rw [hse] at hp; exact List.perm_singleton.mp hp
  have hx' : Snug D x (ws.flatMap fun e => Spec.stringTag e.1 ++ f e.2) := by
    refine listed ws x ?_ hL
    rintro e he y ⟨k, w, rfl, hk, hw⟩
    exact append (string hk) (hs' e (hr.mem_iff.mp he) _ hw)
  rw [← hws]
  exact (hx'.2 (by omega)).2 d

section
variable {P : Type} [TagPayload P]

theorem value {L : Tag P → Bytes → Prop} {t : Tag P} {v : Bytes} (hf : ValueForm (fun _ => Latest) L t v)
    (hD : D → AtMostOneEntry t) (hn : ∀ u x, L u x → Snug False x (enc u))
    (hs : ∀ u, Within u t → ∀ x, L u x → Snug D x (enc u)) : Snug D v (encValue t) := by
  letI : Env := Props.bigEnv
  cases t with
  | seq i ts =>
    rw [encValue, encTags_eq]
    exact listed ts v (fun a ha x hx => hs a (within_seq ha) x hx) hf
  | array i ts =>
    rw [encValue, encTags_eq]
    obtain ⟨c, x, rfl, hc, hx⟩ := hf
    exact append (ilint hc) (listed ts x (fun a ha x hx => hs a (within_array ha) x hx) hx)
  | dict i es =>
    rw [encValue, encSorted_tags]
    obtain ⟨ws, h1, h2⟩ := hf
    exact mapped h1 h2 hD hn fun e he x hx => hs e.2 (within_dict he) x hx
  | atom a =>
    show Snug D v (encAtom a)
    cases a
    case ilint i w => exact ilint hf
    case signedILInt i w => exact ilint hf
    case payload => exact hf.elim
    case ilintArray i vs =>
      obtain ⟨c, x, rfl, hc, hx⟩ := hf
      exact append (ilint hc) (listed vs x (fun a _ x hx => ilint hx) hx)
    case oid i vs =>
      obtain ⟨c, x, rfl, hc, hx⟩ := hf
      exact append (ilint hc) (listed vs x (fun a _ x hx => ilint hx) hx)
    case range i w n =>
      obtain ⟨x, rfl, hx⟩ := hf
      exact append (ilint hx) (refl _)
    case strDict i es =>
      rw [encAtom, encSorted_eq]
      obtain ⟨ws, h1, h2⟩ := hf
      exact mapped h1 h2 hD (fun a x hx => string hx) fun e _ x hx => string hx
    all_goals
      have hf : v = encAtom _ := hf
      rw [hf]
      exact refl _

theorem formAt (k : Nat) : ∀ (D : Prop) (t : Tag P) (x : Bytes) (strict : Bool), FormAt (fun _ => Latest) strict k t x →
    (D → ∀ u, Within u t → AtMostOneEntry u) → Snug D x (enc t) := by
  induction k with
  | zero => intro D t x strict h; exact h.elim
  | succ k ih =>
    intro D t x strict h hD
    obtain ⟨-, h, v, h1, h2, -, hx⟩ := h
    have hv : Snug D v (encValue t) := value h2 (fun d => hD d t (.refl t))
      (fun u x hu => ih False u x strict hu (fun hf => hf.elim))
      (fun u hu x hx => ih D u x strict hx (fun d w hw => hD d w (hw.trans hu)))
    unfold enc wrap
    rcases hx with ⟨h15, rfl⟩ | ⟨h16, l, hl, rfl⟩
    · rw [if_pos h15, List.append_nil]
      exact append (ilint h1) hv
    · rw [if_neg (by omega), List.append_assoc, List.append_assoc]
      exact append (ilint h1) (counted hl hv.1 hv fun h => h)
end
end Snug
end Verif
