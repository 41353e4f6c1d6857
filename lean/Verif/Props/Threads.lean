import Verif.Props.Journal
import Verif.Spec.Threads
import Verif.Spec.Writer
/-!
# C103: several threads append to one log
-/
namespace Verif.Props
open Verif Verif.Spec
variable {P : Type}

theorem turns_order {α : Type} (i : Nat) : ∀ (schedule : List Nat) (queue : Nat → List α),
    ((turns schedule queue).filter (·.1 == i)).map (·.2) = (queue i).take (schedule.count i)
  | [], queue => by simp [turns]
  | j :: schedule, queue => by
    rw [turns]
    cases hq : queue j with
    | nil =>
      rw [turns_order i schedule queue]
      by_cases hj : j = i
      · subst hj; simp [hq]
      · rw [List.count_cons_of_ne hj]
    | cons x rest =>
      by_cases hj : j = i
      · subst hj
        simp [turns_order j schedule, hq]
      · have hj' : ¬ i = j := fun h => hj h.symm
        simp [turns_order i schedule, hj, hj']

theorem turns_mem {α : Type} : ∀ (schedule : List Nat) (queue : Nat → List α) (p : Nat × α),
    p ∈ turns schedule queue → p.2 ∈ queue p.1
  | [], queue, p, h => by simp [turns] at h
  | j :: schedule, queue, p, h => by
    rw [turns] at h
    cases hq : queue j with
    | nil => rw [hq] at h; exact turns_mem schedule queue p h
    | cons x rest =>
      rw [hq] at h
      rcases List.mem_cons.mp h with rfl | h
      · rw [hq]; simp
      · have := turns_mem schedule _ p h
        split at this
        · rename_i hp; rw [hp, hq]; exact List.mem_cons_of_mem _ this
        · exact this

theorem turns_map {α β : Type} (g : α → β) : ∀ (schedule : List Nat) (queue : Nat → List α),
    turns schedule (fun i => (queue i).map g) = (turns schedule queue).map fun p => (p.1, g p.2)
  | [], queue => rfl
  | j :: schedule, queue => by
    rw [turns, turns]
    cases hq : queue j with
    | nil => exact turns_map g schedule queue
    | cons x rest =>
      simp only [List.map_cons, List.cons.injEq, true_and]
      rw [← turns_map g schedule]
      congr 1
      funext i
      split <;> rfl

theorem writeEach_ok {ω : Type} [Writer ω] (S : Sink ω) : ∀ (ds : List Bytes) (w : ω) (pre : Bytes), S.W w pre →
    ∃ w', writeEach ds w = (.ok (), w') ∧ S.W w' (pre ++ ds.flatten)
  | [], w, pre, h => ⟨w, rfl, by simpa using h⟩
  | d :: ds, w, pre, h => by
    obtain ⟨w₁, h1, h2⟩ := S.writeAll_ok d h
    obtain ⟨w₂, h3, h4⟩ := writeEach_ok S ds w₁ _ h2
    refine ⟨w₂, ?_, by simpa using h4⟩
    rw [writeEach, Act.bind_ok h1]
    exact h3

/-- **C103** Threads share a destination; each makes the bytes of its tags and hands in each tag with one `write_all`.
Whatever the schedule, the log then holds the tags in the order of the turns, each of them whole, and each thread's in
its order. -/
theorem C103_whole_tags [TagPayload P] [Env] (hr : MemoryOk) (e : Engine P) (tss : Nat → List (Tag P))
    (bss : Nat → List Bytes) (hts : ∀ i, ∀ t ∈ tss i, MapsOk t ∧ PayloadsOk t ∧ Supported e t)
    (hb : ∀ i, (tss i).map Tag.toBytes = (bss i).map .ok) (schedule : List Nat) {ω : Type} [Writer ω] (S : Sink ω)
    (w : ω) (hw : S.W w []) :
    ∃ w' log, writeEach ((turns schedule bss).map (·.2)) w = (.ok (), w') ∧ S.W w' log ∧
      (∀ {σ : Type} [Reader σ] (V : View σ) (s : σ), V.R s log →
        ∃ us s', ReadSeq e s us s' ∧ V.R s' [] ∧ us.length = (turns schedule tss).length ∧
          ∀ (k : Nat) (h : k < (turns schedule tss).length) (h' : k < us.length), Same (turns schedule tss)[k].2 us[k]) ∧
      ∀ i, ((turns schedule tss).filter (·.1 == i)).map (·.2) = (tss i).take (schedule.count i) := by
  have hbe : bss = fun i => (tss i).map enc := by
    funext i
    have h := hb i
    rw [List.map_congr_left (g := fun t => Res.ok (enc t)) fun t ht =>
      toBytes_eq_enc hr (hts i t ht).1 (hts i t ht).2.1 (hts i t ht).2.2] at h
    have h' := congrArg (List.map fun r : Res TagErr Bytes => match r with | .ok b => b | _ => []) h
    simpa [List.map_map, Function.comp_def] using h'.symm
  obtain ⟨w', h1, h2⟩ := writeEach_ok S ((turns schedule bss).map (·.2)) w [] hw
  refine ⟨w', _, h1, h2, ?_, fun i => turns_order i schedule tss⟩
  intro σ _ V s hR
  rw [hbe, turns_map] at hR
  simp only [List.map_map, List.nil_append] at hR
  have hmem := turns_mem schedule tss
  generalize turns schedule tss = done at *
  clear h1 h2
  induction done generalizing s with
  | nil =>
    exact ⟨[], s, .nil s, by simpa using hR, rfl, fun k h => by simp at h⟩
  | cons p done ih =>
    obtain ⟨hm, hp, hs⟩ := hts p.1 p.2 (hmem p (by simp))
    rw [List.map_cons, List.flatten_cons] at hR
    obtain ⟨t, s₁, g1, g2, g3⟩ := C31_self_delimiting hr e p.2 hm hp hs (toBytes_eq_enc hr hm hp hs) V s _ hR
    obtain ⟨us, s', f1, f2, f3, f4⟩ := ih s₁ g3 fun q hq => hmem q (List.mem_cons_of_mem _ hq)
    refine ⟨t :: us, s', .cons g1 f1, f2, by simp [f3], ?_⟩
    intro k h h'
    cases k with
    | zero => exact g2
    | succ k => exact f4 k (by simpa using h) (by simpa using h')

section
attribute [local instance] bigEnv

/-- **C103** With `serialize` on the shared destination it is false, also when every call of the destination is atomic:
for two threads that write the same tag there is an order of their calls after which the log reads without an error as
three tags, none of which anybody wrote. -/
theorem C103_calls_mix : ∃ (t : Tag Empty) (calls : List WOp) (schedule : List Nat),
    MapsOk t ∧ (∀ e : IoErr, t.serialize (⟨2, [], e⟩ : Recorder) = (.ok (), ⟨0, calls, e⟩)) ∧
    (∀ i < 2, ((turns schedule fun i => if i < 2 then calls else []).filter (·.1 == i)).map (·.2) = calls) ∧
    (match Factory.deserialize (Engine.std true : Engine Empty) ByteArrayReader
        (.new (opsBytes ((turns schedule fun i => if i < 2 then calls else []).map (·.2)))) with
      | (.ok (.atom (.uint8 3 3)), r) =>
        (match Factory.deserialize (Engine.std true : Engine Empty) ByteArrayReader r with
          | (.ok (.atom (.null 0)), r) =>
            (match Factory.deserialize (Engine.std true : Engine Empty) ByteArrayReader r with
              | (.ok (.atom (.null 0)), r) => r.available == 0
              | _ => false)
          | _ => false)
      | _ => false) = true ∧ t.toBytes = .ok [3, 0] := by
  refine ⟨.atom (.uint8 3 0), [.byte 3, .byte 0], [0, 1, 0, 1], mapsOk_of_B (by decide), fun e => rfl, ?_, ?_, rfl⟩
  · intro i hi
    obtain rfl | rfl : i = 0 ∨ i = 1 := by omega
    · decide
    · decide
  · rw [deserialize_eq]; decide +kernel

-- the tags of `C103_whole_tags`: two threads, one with two tags and one with one
example : ∃ w' log, writeEach ((turns [1, 0, 0] fun i => if i = 0 then [enc sample, enc sample] else
      if i = 1 then [enc sample] else []).map (·.2)) (VecWriter.new) = (.ok (), w') ∧ VecWriter.sink.W w' log ∧
    ∃ us s', ReadSeq sampleEngine (ByteArrayReader.new log) us s' ∧ us.length = 3 := by
  obtain ⟨w', log, h1, h2, h3, -⟩ := C103_whole_tags bigEnv_ok sampleEngine
    (fun i => if i = 0 then [sample, sample] else if i = 1 then [sample] else []) 
    (fun i => if i = 0 then [enc sample, enc sample] else if i = 1 then [enc sample] else [])
    (fun i t ht => by
      have : t = sample := by
        split at ht
        · simpa using ht
        · split at ht
          · simpa using ht
          · simp at ht
      subst this
      exact ⟨sample_maps, sample_payloads _, sample_supported⟩)
    (fun i => by
      have := toBytes_eq_enc bigEnv_ok sample_maps (sample_payloads _) sample_supported
      split
      · simp [this]
      · split <;> simp [this]) [1, 0, 0] VecWriter.sink VecWriter.new VecWriter.sink_new
  obtain ⟨us, s', g1, -, g3, -⟩ := h3 ByteArrayReader.view.toView (.new log) (ByteArrayReader.view_new _)
  exact ⟨w', log, h1, h2, us, s', g1, g3⟩

end
end Verif.Props
