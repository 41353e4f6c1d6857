import Verif.Props.ValueApi
import Verif.Props.Renew
/-!
# C82: `deserialize_value` called directly, with a customised factory
-/
namespace Verif.Props
open Verif Verif.Spec
variable {P : Type} [TagPayload P]

/-- **C82** With a customised factory, from any reader: a value of a type of the library is accepted exactly if the bytes in
the reader begin with a form of a value of this type, of the declared length (for the two ILInt tags: with an ILInt), where
the tags inside have the forms of the factory; the tag keeps its type and id and gets that value, and exactly the form is
consumed. -/
theorem C82_custom [Env] (hr : MemoryOk) {e : Engine P} (he : Regular e) (t₀ : Tag P) (ht : t₀.kind ≠ .payload) (size : Nat)
    (hs : size ≤ maxValue) {σ : Type} [Reader σ] (V : View σ) (s : σ) (bs : Bytes) (h : V.R s bs) :
    (∀ t s', t₀.deserializeValue (Factory.methods e) size (t₀, s) = (.ok (), (t, s')) →
      t.kind = t₀.kind ∧ t.id = t₀.id ∧ ∃ x rest, bs = x ++ rest ∧ ValueForm (fun _ => Latest) (CustomForm e) t x ∧
        (oneILInt t₀.kind ∨ x.length = size) ∧ V.R s' rest) ∧
    (∀ t x rest, bs = x ++ rest → t.kind = t₀.kind → t.id = t₀.id → ValueForm (fun _ => Latest) (CustomForm e) t x →
      (oneILInt t₀.kind ∨ x.length = size) →
      ∃ t' s', t₀.deserializeValue (Factory.methods e) size (t₀, s) = (.ok (), (t', s')) ∧ Same t' t ∧ V.R s' rest) := by
  have hd := sim_tagValue (V := V) (f := Factory.methods e) (pf := Parser.call e) (sim_deserializeFuel _ Factory.fuel) size t₀
    s bs h
  have htop : Acc (Parser.top e) fun t x => ∃ k, CustomFormAt Acc.made e k t x := by
    intro bs t rest
    rw [top_custom hr he]
    constructor
    · rintro ⟨x, k, h1, h2⟩; exact ⟨x, h1, k, h2⟩
    · rintro ⟨x, h1, k, h2⟩; exact ⟨x, k, h1, h2⟩
  have hpos : ∀ (t : Tag P) x, (∃ k, CustomFormAt Acc.made e k t x) → 1 ≤ x.length := by
    rintro t x ⟨_ | k, hk⟩
    · exact hk.elim
    · obtain ⟨-, hd, v, -, -, h1, -, -, ⟨-, rfl⟩ | ⟨-, l, -, rfl⟩⟩ := hk <;>
        have := Acc.isILInt_length h1 <;> simp <;> omega
  have hacc := Acc.tagValue hr htop hpos (vs := size) hs t₀ ht
  constructor
  · intro t s' hv
    cases hp : Parser.tagValue (Parser.call e) size t₀ bs with
    | ok t' rest =>
      rw [hp] at hd
      obtain ⟨s1, h1, h2⟩ := hd
      rw [hv] at h1
      cases h1
      obtain ⟨x, h3, h4, h5, h6, h7⟩ := (hacc _ _ _).mp hp
      exact ⟨h4, h5, x, rest, h3, valueForm_mono (fun _ _ _ => latest_made) (fun t x ⟨k, hx⟩ =>
        ⟨k, customFormAt_mono (fun _ _ _ => latest_made) e (Nat.le_refl _) t _ hx⟩) t x h6, h7, h2⟩
    | short => rw [hp] at hd; obtain ⟨e, t', s1, h1, -⟩ := hd; rw [hv] at h1; cases h1
    | fail e => rw [hp] at hd; obtain ⟨t', s1, h1⟩ := hd; rw [hv] at h1; cases h1
    | panic => rw [hp] at hd; obtain ⟨t', s1, h1⟩ := hd; rw [hv] at h1; cases h1
    | diverge => rw [hp] at hd; obtain ⟨t', s1, h1⟩ := hd; rw [hv] at h1; cases h1
  · intro t x rest hb hk hi hx hlen
    obtain ⟨t', h1, h2⟩ := valueForm_made (L' := fun t x => ∃ k, CustomFormAt Acc.made e k t x)
      (fun t x ⟨k, hx⟩ => by obtain ⟨t', h3, h4⟩ := customFormAt_made t x hx; exact ⟨t', ⟨k, h3⟩, h4⟩) t x hx
    obtain ⟨hk', hi'⟩ := same_kind_id h2
    rw [(hacc bs t' rest).mpr ⟨x, hb, hk'.trans hk, hi'.trans hi, h1, hlen⟩] at hd
    obtain ⟨s', h3, h4⟩ := hd
    exact ⟨t', s', h3, h2, h4⟩

/-- **C82** And the value of a payload: the user's code is given the declared size and the reader; if it takes just that many
bytes it does with them what it does with them alone. -/
theorem C82_payload [Env] (e : Engine P) (id : UInt64) (p₀ : P) (v rest : Bytes) (p : P) (hp : PayloadReads e p₀ p v)
    {σ : Type} [Reader σ] (V : View σ) (s : σ) (h : V.R s (v ++ rest)) :
    ∃ s', (Tag.atom (.payload id p₀)).deserializeValue (Factory.methods e) v.length (.atom (.payload id p₀), s) =
        (.ok (), (.atom (.payload id p), s')) ∧ V.R s' rest := by
  have hd := sim_tagValue (V := V) (f := Factory.methods e) (pf := Parser.call e) (sim_deserializeFuel _ Factory.fuel) v.length
    (.atom (.payload id p₀)) s _ h
  have h1 := Acc.payloadReads_iff e p₀ p v |>.mp hp
  have h2 : Parser.tagValue (Parser.call e) v.length (.atom (.payload id p₀)) v = .ok (.atom (.payload id p)) [] := by
    simp only [Parser.tagValue, Parser.atomValue]
    rw [Parser.bind_apply, Parser.bind_apply, h1]
    rfl
  obtain ⟨u, hu, hx⟩ := (Local.tagValue (Local.call e) _ _).ok h2
  rw [List.append_nil] at hu
  subst hu
  rw [hx rest] at hd
  obtain ⟨s', h5, h6⟩ := hd
  exact ⟨s', h5, h6⟩

section
attribute [local instance] bigEnv

/-- Non-vacuity: a sequence under another id, with a payload in it, and the payload itself. -/
example : (match (Tag.seq 22 []).deserializeValue (Factory.methods (withPayload false 5000 (.num 0 : Counter))) 6
        (.seq 22 [], ByteArrayReader.new [249, 18, 144, 2, 10, 7, 99]),
      (Tag.atom (.payload 5000 (.num 0 : Counter))).deserializeValue (Factory.methods (withPayload false 5000 (.num 0 : Counter))) 2
        (.atom (.payload 5000 (.num 0)), ByteArrayReader.new [10, 7, 99]) with
    | (.ok (), .seq 22 [.atom (.payload 5000 (.num v))], r), (.ok (), .atom (.payload 5000 (.num w)), r') =>
      v == 7 && w == 7 && r.available == 1 && r'.available == 1
    | _, _ => false) = true := by
  decide +kernel
end

end Verif.Props
