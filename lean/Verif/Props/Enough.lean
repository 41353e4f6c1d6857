import Verif.Props.Requests
import Verif.Props.Readers
import Verif.Props.Calls
import Verif.Props.Bulk
/-!
# How much memory is enough (C110)

The amount of memory is a parameter here, `E` and `E'`, so that two machines can be compared.
-/
namespace Verif.Props
open Verif Verif.Spec
variable {P : Type} [TagPayload P]

theorem run_more {τ α : Type} (T : Prog τ α) (E E' : Env) (hE : E.allocMax ≤ E'.allocMax) {σ : Type} [Reader σ] (s : σ) :
    (@Prog.run τ α E σ _ T s).1 = .panic ∨ @Prog.run τ α E σ _ T s = @Prog.run τ α E' σ _ T s := by
  induction T generalizing s with
  | done r t => exact .inr rfl
  | read t k ih =>
    simp only [Prog.run]
    rcases Reader.read s with ⟨r, s'⟩
    cases r <;> first | exact ih _ _ | exact .inr rfl
  | readAll t n k ih =>
    simp only [Prog.run]
    rcases Reader.readAll n s with ⟨r, s'⟩
    cases r <;> first | exact ih _ _ | exact .inr rfl
  | alloc t u c k ih =>
    simp only [Prog.run]
    by_cases h : u * c ≤ E.allocMax
    · rw [if_pos h, if_pos (Nat.le_trans h hE)]; exact ih s
    · rw [if_neg h]; exact .inl rfl

/-- **C110** With less memory `deserialize` panics, or does exactly what it does with more: same result, same tag or
error, reader left in the same state.  Whatever the factory, its payloads and the reader. -/
theorem C110_same (E E' : Env) (hE : E.allocMax ≤ E'.allocMax) (e : Engine P) {σ : Type} [Reader σ] (s : σ) :
    (@Factory.deserialize P _ E e σ _ s).1 = .panic ∨
    @Factory.deserialize P _ E e σ _ s = @Factory.deserialize P _ E' e σ _ s := by
  rw [@C76_tree P _ σ _ E, @C76_tree P _ σ _ E']
  rcases run_more (PS.deserialize e) E E' hE s with h | h
  · exact .inl h
  · exact .inr (by rw [h])

/-- **C110** The same for `from_bytes`. -/
theorem C110_from_bytes (E E' : Env) (hE : E.allocMax ≤ E'.allocMax) (e : Engine P) (bs : Bytes) :
    @Factory.fromBytes P _ E e bs = .panic ∨ @Factory.fromBytes P _ E e bs = @Factory.fromBytes P _ E' e bs := by
  unfold Factory.fromBytes
  rcases C110_same E E' hE e (ByteArrayReader.new bs) with h | h
  · left
    rcases hx : @Factory.deserialize P _ E e ByteArrayReader _ (ByteArrayReader.new bs) with ⟨r, s⟩
    rw [hx] at h
    cases h
    rfl
  · right; rw [h]

/-- **C110** `to_bytes` asks for one buffer, of the size the tag announces: with less it panics, with that or more the
amount makes no difference. -/
theorem C110_to_bytes (E E' : Env) (t : Tag P) :
    (E.allocMax < t.size.toNat → @Tag.toBytes P E _ t = .panic) ∧
    (t.size.toNat ≤ E.allocMax → t.size.toNat ≤ E'.allocMax → @Tag.toBytes P E _ t = @Tag.toBytes P E' _ t) := by
  unfold Tag.toBytes
  exact ⟨fun h => by rw [if_neg (by omega)], fun h h' => by rw [if_pos h, if_pos h']⟩

theorem run_enough {τ α : Type} (T : Prog τ α) (E E' : Env) {σ : Type} [Reader σ] (s : σ)
    (h : T.requested s ≤ E.allocMax) (h' : T.requested s ≤ E'.allocMax) :
    @Prog.run τ α E σ _ T s = @Prog.run τ α E' σ _ T s := by
  induction T generalizing s with
  | done r t => rfl
  | read t k ih =>
    simp only [Prog.run, Prog.requested] at h h' ⊢
    rcases hx : Reader.read s with ⟨r, s'⟩
    rw [hx] at h h'
    cases r <;> first | exact ih _ _ h h' | rfl
  | readAll t n k ih =>
    simp only [Prog.run, Prog.requested] at h h' ⊢
    rcases hx : Reader.readAll n s with ⟨r, s'⟩
    rw [hx] at h h'
    cases r <;> first | exact ih _ _ h h' | rfl
  | alloc t u c k ih =>
    simp only [Prog.run, Prog.requested] at h h' ⊢
    rw [if_pos (by omega), if_pos (by omega)]
    exact ih s (by omega) (by omega)

theorem bytes_le_delivered {τ α : Type} [Env] (T : Prog τ α) {σ : Type} [Reader σ] (w : Counted σ) :
    (T.run w).2.2.bytes ≤ w.bytes + T.delivered w.source := by
  induction T generalizing w with
  | done r t => simp [Prog.run]
  | read t k ih =>
    simp only [Prog.run, Prog.delivered, Reader.read, Counted.count]
    rcases hx : Reader.read w.source with ⟨r, s'⟩
    cases r with
    | ok b => have := ih b ⟨s', w.calls + 1, w.bytes + 1⟩; simp only at this ⊢; omega
    | _ => simp
  | readAll t n k ih =>
    simp only [Prog.run, Prog.delivered, Reader.readAll, Counted.count]
    rcases hx : Reader.readAll n w.source with ⟨r, s'⟩
    cases r with
    | ok b =>
      have hl := Reader.readAll_len _ _ _ _ hx
      have := ih b ⟨s', w.calls + 1, w.bytes + b.length⟩
      simp only at this ⊢
      omega
    | _ => simp
  | alloc t u c k ih =>
    simp only [Prog.run, Prog.delivered]
    split
    · exact ih w
    · simp

/-- **C110** What is accepted on some machine is accepted, with the same tag and the reader left in the same state, on
every machine with sixteen bytes of memory for every byte the reader holds. -/
theorem C110_enough (E E' : Env) (e : Engine P) {σ : Type} [Reader σ] (V : View σ) (s s' : σ) (bs : Bytes)
    (hv : V.R s bs) (hE : 16 * bs.length ≤ E.allocMax) (t : Tag P)
    (h : @Factory.deserialize P _ E' e σ _ s = (.ok t, s')) : @Factory.deserialize P _ E e σ _ s = (.ok t, s') := by
  have hq : (PS.deserialize e).requested s ≤ 16 * bs.length := by
    have h1 := (@C75_counting_is_transparent P _ E' σ _ e s).1
    rw [h] at h1
    have h2 := @C76_success_linear P _ σ _ E' e s t
      (@Factory.deserialize P _ E' e (Counted σ) _ (Counted.start s)).2 (Prod.ext h1 rfl)
    have h3 := @bytes_le_delivered _ _ E' (PS.deserialize e) σ _ (Counted.start s)
    rw [@C76_tree P _ (Counted σ) _ E'] at h2
    have h4 := delivered_le V (PS.deserialize e) s bs hv
    simp only [Counted.start] at h2 h3
    omega
  rw [← h]
  rcases Nat.le_total E.allocMax E'.allocMax with hle | hle
  · rw [@C76_tree P _ σ _ E, @C76_tree P _ σ _ E', run_enough (PS.deserialize e) E E' s (by omega) (by omega)]
  · rcases C110_same E' E hle e s with hp | hp
    · rw [h] at hp; cases hp
    · exact hp.symm

/-- **C110** The same for `from_bytes`. -/
theorem C110_from_bytes_enough (E E' : Env) (e : Engine P) (bs : Bytes) (hE : 16 * bs.length ≤ E.allocMax) (t : Tag P)
    (h : @Factory.fromBytes P _ E' e bs = .ok t) : @Factory.fromBytes P _ E e bs = .ok t := by
  unfold Factory.fromBytes at h ⊢
  rcases hx : @Factory.deserialize P _ E' e ByteArrayReader _ (ByteArrayReader.new bs) with ⟨r, s'⟩
  rw [hx] at h
  cases r with
  | ok u => rw [C110_enough E E' e ByteArrayReader.view.toView _ s' bs (ByteArrayReader.view_new bs) hE u hx]; exact h
  | _ => cases h

theorem enough_std [E : Env] (strict : Bool) (t : Tag P) (hm : MapsOk t)
    (hs : ∀ u, Within u t → StdTag strict u ∧ (encValue u).length ≤ maxValue)
    (hE : 16 * (enc t).length ≤ Env.allocMax) :
    t.toBytes = .ok (enc t) ∧ Factory.fromBytes (Engine.std strict) (enc t) = .ok (canon t) := by
  have hp : PayloadsOk t := fun id p hu => by
    rcases (hs _ hu).1 with h | ⟨-, h, -⟩
    · simp [Tag.kind, Atom.kind, standardId] at h
    · simp [Tag.kind, Atom.kind] at h
  have hl : (enc t).length < 2 ^ 64 := by
    have := @enc_length_le _ _ bigEnv _ _ (@std_supported _ _ bigEnv _ _ hs)
    have : maxValue = 536870912 := rfl
    omega
  refine ⟨C29_to_bytes t hm hp hl (by omega), C110_from_bytes_enough E bigEnv _ _ hE _ ?_⟩
  rw [@fromBytes_ok_iff]
  have := @top_enc P bigEnv _ bigEnv_ok (Engine.std strict) t hm (@std_supported _ _ bigEnv _ _ hs) []
  rwa [List.append_nil] at this

/-- **C110** So the round trip of C30 needs no 8 GiB buffer: sixteen times the size of the encoding is enough. -/
theorem C110_round_trip [Env] (strict : Bool) (t : Tag P) (hm : MapsOk t)
    (hs : ∀ u, Within u t → StdTag strict u ∧ (encValue u).length ≤ maxValue)
    (hE : 16 * (enc t).length ≤ Env.allocMax) :
    ∃ bs t', t.toBytes = .ok bs ∧ Factory.fromBytes (Engine.std strict) bs = .ok t' ∧ Same t t' :=
  ⟨_, _, (enough_std strict t hm hs hE).1, (enough_std strict t hm hs hE).2, same_canon hm⟩

/-- **C110** And no fewer than sixteen per byte would do: for every count of null tags in an array, the bytes are at
most 11 more than the tags, any machine with enough memory accepts them, and one that cannot serve a buffer of sixteen
bytes for every tag panics. -/
theorem C110_sharp [E : Env] (strict : Bool) (n : Nat) (h0 : 0 < n) (hn : n + 9 ≤ maxValue) :
    ∃ bs : Bytes, bs.length ≤ n + 11 ∧
      (16 * bs.length ≤ Env.allocMax → ∃ t : Tag P, Factory.fromBytes (Engine.std strict) bs = .ok t) ∧
      (Env.allocMax < 16 * n → Factory.fromBytes (Engine.std strict : Engine P) bs = .panic) := by
  have hmax : maxValue = 536870912 := rfl
  have h64 : n < 2 ^ 64 := by omega
  have h5 := ilint_le5 (n := n) (by omega)
  have h51 := ilint_le5 (n := (Spec.ilint n).length + n) (by omega)
  have hnull : enc (.atom (.null 0) : Tag P) = [0] := rfl
  have hev : encValue (.array 21 (List.replicate n (.atom (.null 0))) : Tag P) =
      Spec.ilint n ++ List.replicate n 0 := by
    rw [encValue, encTags_eq, List.length_replicate, List.flatMap_replicate, hnull]
    simp
  have hval : (encValue (.array 21 (List.replicate n (.atom (.null 0))) : Tag P)).length = (Spec.ilint n).length + n := by
    rw [hev]; simp
  have henc : enc (.array 21 (List.replicate n (.atom (.null 0))) : Tag P) = Spec.ilint 21 ++
      Spec.ilint ((Spec.ilint n).length + n) ++ (Spec.ilint n ++ List.replicate n 0) := by
    rw [← hval, ← hev]; rfl
  have hw : ∀ u : Tag P, Within u (.array 21 (List.replicate n (.atom (.null 0)))) →
      u = .array 21 (List.replicate n (.atom (.null 0))) ∨ u = .atom (.null 0) := by
    intro u hu
    cases hu with
    | refl => exact .inl rfl
    | array hm hw =>
      right
      rw [(List.mem_replicate.mp hm).2] at hw
      cases hw
      rfl
  have hm : MapsOk (.array 21 (List.replicate n (.atom (.null 0))) : Tag P) := fun u hu => by
    rcases hw u hu with rfl | rfl <;> trivial
  refine ⟨enc (.array 21 (List.replicate n (.atom (.null 0))) : Tag P), ?_, fun hE => ?_, fun hE => ?_⟩
  · rw [henc]
    simp only [List.length_append, List.length_replicate, show (Spec.ilint 21).length = 1 from rfl]
    omega
  · exact ⟨_, (enough_std strict _ hm (fun u hu => by
      rcases hw u hu with rfl | rfl
      · exact ⟨.inl rfl, by omega⟩
      · exact ⟨.inl rfl, Nat.zero_le _⟩) hE).2⟩
  · have hp : Parser.top (Engine.std strict : Engine P) (enc (.array 21 (List.replicate n (.atom (.null 0))) : Tag P)) =
        .panic := by
      obtain ⟨t₀, hc, hk, hi⟩ := std_create (P := P) (strict := strict) (id := 21) (k := .array) rfl
      rw [henc, top_eq, show Spec.ilint 21 = Spec.ilint (21 : UInt64).toNat from rfl, List.append_assoc,
        Parser.bind_ok (ilint_enc _ _), tagSize_explicit (by decide), Parser.bind_assoc,
        Parser.bind_ok (ilint_enc_nat (by omega) _), tagSizeToUsize_eq (show _ ≤ maxValue by omega), Parser.lift_ok, Parser.pure_bind, hc,
        Parser.lift_ok, Parser.pure_bind]
      cases t₀ with
      | atom a => cases a <;> simp [Tag.kind, Atom.kind] at hk
      | array id ts =>
        have hs : (Spec.ilint n).length + n ≤ (Spec.ilint n ++ List.replicate n (0 : Byte)).length := by simp
        have hv : (UInt64.ofNat n).toNat = n := by simp; omega
        have htk : (Spec.ilint n ++ List.replicate n (0 : Byte)).take ((Spec.ilint n).length + n) =
            Spec.ilint n ++ List.replicate n 0 := List.take_of_length_le (by simp)
        obtain ⟨m, hm'⟩ : ∃ m, (Spec.ilint n).length + n = m + 1 := ⟨(Spec.ilint n).length + n - 1, by omega⟩
        rw [hm'] at hs htk ⊢
        have hle : ¬ n > m + 1 := by omega
        simp only [Parser.tagValueInto, Parser.limited, hs, if_true, htk, Parser.tagValue, Parser.array,
          Parser.bind_apply, ilint_enc_nat h64, hv, if_neg hle, if_neg (Nat.not_le.mpr hE),
          Parser.panic_apply]
      | seq id ts => simp [Tag.kind] at hk
      | dict id ts => simp [Tag.kind] at hk
    have hf := fromBytes_cases (Engine.std strict : Engine P)
      (enc (.array 21 (List.replicate n (.atom (.null 0))) : Tag P))
    rw [hp] at hf
    exact hf

/-! ### Cases -/

/-- A machine that can serve no buffer larger than 160 bytes. -/
@[reducible] def smallEnv : Env := ⟨160⟩

example : smallEnv.allocMax ≤ bigEnv.allocMax ∧ ¬ @MemoryOk smallEnv := by unfold MemoryOk; decide

/-- Six null tags in an array, nine bytes: enough memory on the small machine; eleven: it panics, the large one does
not. -/
example :
    (match @Factory.fromBytes Empty _ smallEnv (Engine.std true) [21, 7, 6, 0, 0, 0, 0, 0, 0] with
      | .ok (.array _ ts) => decide (ts.length = 6) | _ => false) = true ∧
    (match @Factory.fromBytes Empty _ smallEnv (Engine.std true) [21, 12, 11, 0, 0, 0, 0, 0, 0, 0, 0, 0, 0, 0] with
      | .panic => true | _ => false) = true ∧
    (match @Factory.fromBytes Empty _ bigEnv (Engine.std true) [21, 12, 11, 0, 0, 0, 0, 0, 0, 0, 0, 0, 0, 0] with
      | .ok (.array _ ts) => decide (ts.length = 11) | _ => false) = true := by
  unfold Factory.fromBytes
  simp only [@deserialize_eq]
  decide +kernel

/-- The hypotheses of the round trip hold for a tag on the small machine. -/
example : (16 * (enc (.array 21 [.atom (.null 0), .atom (.null 0)] : Tag Empty)).length ≤ smallEnv.allocMax) ∧
    ∀ u : Tag Empty, Within u (.array 21 [.atom (.null 0), .atom (.null 0)]) →
      StdTag true u ∧ (encValue u).length ≤ maxValue := by
  refine ⟨by decide, fun u hu => ?_⟩
  cases hu with
  | refl => exact ⟨.inl rfl, by decide⟩
  | array hm hw =>
    simp only [List.mem_cons, List.not_mem_nil, or_false, or_self] at hm
    subst hm
    cases hw
    exact ⟨.inl rfl, by decide⟩

end Verif.Props
