import Verif.Props.Consumer
import Verif.Spec.Log
/-!
# C95: a log written in sessions, with crashes
-/
namespace Verif.Props
open Verif Verif.Spec
variable {P : Type}
set_option linter.unusedSectionVars false

section
variable [TagPayload P] [Env]

/-- Whole tags at the front of the buffer are delivered. -/
theorem drain_enc (hr : MemoryOk) (e : Engine P) (L : List (Tag P)) (p : Bytes) (hp : Parser.top e p = .short) :
    ∀ (c : Consumer P) (n : Nat), (∀ t ∈ L, MapsOk t ∧ PayloadsOk t ∧ Supported e t) →
    c.buffer = (L.map enc).flatten ++ p → L.length ≤ n → c.drain e n = ⟨p, c.tags ++ L.map canon, c.ended⟩ := by
  induction L with
  | nil =>
    intro c n _ hc _
    simp only [List.map_nil, List.flatten_nil, List.nil_append] at hc
    rw [List.map_nil, List.append_nil, ← hc]
    cases n with
    | zero => rfl
    | succ n => exact (drain_succ e n c).2.1 (.inl (by rw [hc, hp]))
  | cons t L ih =>
    intro c n hL hc hn
    cases n with
    | zero => simp at hn
    | succ n =>
      obtain ⟨hm, -, hs⟩ := hL t (by simp)
      have ht := top_enc hr e t hm hs ((L.map enc).flatten ++ p)
      rw [List.map_cons, List.flatten_cons, List.append_assoc] at hc
      rw [← hc] at ht
      rw [(drain_succ e n c).1 _ _ ht, ih ⟨_, _, _⟩ n (fun t ht => hL t (by simp [ht])) rfl (by simpa using hn)]
      simp

/-- What may be left behind the last whole tag: nothing, or a proper part of a tag. -/
def CutTag (e : Engine P) (p : Bytes) : Prop :=
  p = [] ∨ ∃ t, (MapsOk t ∧ Supported e t) ∧ p <+: enc t ∧ p.length < (enc t).length

/-- Opening a log of whole tags and a part of another. -/
theorem openLog_eq (hr : MemoryOk) (e : Engine P) (L : List (Tag P)) (p : Bytes)
    (hL : ∀ t ∈ L, MapsOk t ∧ PayloadsOk t ∧ Supported e t) (hp : CutTag e p) :
    openLog e ((L.map enc).flatten ++ p) = ⟨p, L.map canon, none⟩ := by
  have hs : Parser.top e p = .short := by
    rcases hp with rfl | ⟨t, ht, hp, hl⟩
    · rw [top_eq]; rfl
    · have h := top_enc hr e t ht.1 ht.2 []
      obtain ⟨x, hx⟩ := hp
      rw [List.append_nil, ← hx] at h
      rw [← hx, List.length_append] at hl
      exact short_of_prefix (Local.top e) h (by simp only [List.length_nil]; omega)
  have hlen : ∀ L : List (Tag P), L.length ≤ (L.map enc).flatten.length := by
    intro L
    induction L with
    | nil => simp
    | cons t L ih =>
      have h5 : 0 < (enc t).length := by
        simp only [enc, wrap_length]
        have := ilint_pos t.id.toNat
        omega
      simp only [List.map_cons, List.flatten_cons, List.length_append, List.length_cons]
      omega
  simp only [openLog, Consumer.feed, Consumer.start, List.nil_append]
  rw [drain_enc hr e L p hs ⟨_, [], none⟩ _ hL rfl (by have := hlen L; rw [List.length_append]; omega)]
  rfl

theorem wholeTags_eq (hr : MemoryOk) (e : Engine P) (L : List (Tag P)) (p : Bytes)
    (hL : ∀ t ∈ L, MapsOk t ∧ PayloadsOk t ∧ Supported e t) (hp : CutTag e p) :
    wholeTags e ((L.map enc).flatten ++ p) = (L.map enc).flatten := by
  rw [wholeTags, openLog_eq hr e L p hL hp]
  simp

/-- One session. -/
theorem session_inv (hr : MemoryOk) (e : Engine P) (L : List (Tag P)) (p : Bytes)
    (hL : ∀ t ∈ L, MapsOk t ∧ PayloadsOk t ∧ Supported e t) (hp : CutTag e p) {ω : Type} [Writer ω]
    (J : Journal ω) (w : ω) (ok : J.ok w) (start : J.out w = wholeTags e ((L.map enc).flatten ++ p)) (ts : List (Tag P))
    (hts : ∀ t ∈ ts, MapsOk t ∧ PayloadsOk t ∧ Supported e t) :
    ∃ n p', (appendTags ts w).1 ≤ n ∧ n ≤ (appendTags ts w).1 + 1 ∧ n ≤ ts.length ∧ CutTag e p' ∧
      J.out (appendTags ts w).2 = ((L ++ ts.take n).map enc).flatten ++ p' := by
  have h64 : ∀ t ∈ ts, (enc t).length < 2 ^ 64 := by
    intro t ht
    have := enc_length_le (hts t ht).2.2
    have : maxValue = 536870912 := rfl
    omega
  obtain ⟨got, g1, g2, g3, g4⟩ :=
    journal_append J ts (fun t ht => ⟨(hts t ht).1, (hts t ht).2.1, h64 t ht⟩) w ok
  rw [start, wholeTags_eq hr e L p hL hp] at g1
  generalize appendTags ts w = q at *
  obtain ⟨m, w'⟩ := q
  simp only at *
  rcases Nat.lt_or_ge m ts.length with hm | hm
  · have hpre := g4 hm
    by_cases hfull : got.length < (enc ts[m]).length
    · exact ⟨m, got, Nat.le_refl _, by omega, by omega,
        .inr ⟨ts[m], ⟨(hts _ (List.getElem_mem hm)).1, (hts _ (List.getElem_mem hm)).2.2⟩, hpre, hfull⟩, by rw [g1]; simp⟩
    · have : got = enc ts[m] := hpre.eq_of_length (by have := hpre.length_le; omega)
      refine ⟨m + 1, [], by omega, Nat.le_refl _, by omega, .inl rfl, ?_⟩
      rw [g1, this, List.take_add_one, List.getElem?_eq_getElem hm, Option.toList_some]
      simp only [List.map_append, List.map_cons, List.map_nil, List.flatten_append, List.flatten_cons, List.flatten_nil,
        List.append_nil, List.append_assoc]
  · exact ⟨m, [], Nat.le_refl _, by omega, g2, .inl rfl, by rw [g1, g3 (by omega)]; simp⟩

/-- The tags that are in the log after sessions that kept `ns` of their tags. -/
def keptTags (ss : List (Session P)) (ns : List Nat) : List (Tag P) :=
  (List.zipWith (fun s n => s.tags.take n) ss ns).flatten

theorem log_inv (hr : MemoryOk) (e : Engine P) {ss : List (Session P)} {content : Bytes} (h : LogHistory e ss content)
    (hts : ∀ s ∈ ss, ∀ t ∈ s.tags, MapsOk t ∧ PayloadsOk t ∧ Supported e t) :
    ∃ (ns : List Nat) (p : Bytes), ns.length = ss.length ∧
      (∀ (i : Nat) (h : i < ss.length) (h' : i < ns.length),
        ss[i].reported ≤ ns[i] ∧ ns[i] ≤ ss[i].reported + 1 ∧ ns[i] ≤ ss[i].tags.length) ∧
      content = ((keptTags ss ns).map enc).flatten ++ p ∧ CutTag e p ∧
      (∀ t ∈ keptTags ss ns, MapsOk t ∧ PayloadsOk t ∧ Supported e t) := by
  induction h with
  | empty => exact ⟨[], [], rfl, fun i h => absurd h (by simp), rfl, .inl rfl, by simp [keptTags]⟩
  | @session ss content _ ω _ J w ok start ts ih =>
    obtain ⟨ns, p, h1, h2, h3, h4, h5⟩ := ih fun s hs => hts s (List.mem_append_left _ hs)
    have hgood : ∀ t ∈ ts, MapsOk t ∧ PayloadsOk t ∧ Supported e t := hts ⟨ts, _⟩ (List.mem_append_right _ (List.mem_singleton.mpr rfl))
    rw [h3] at start
    obtain ⟨n, p', a1, a2, a3, a4, a5⟩ := session_inv hr e _ p h5 h4 J w ok start ts hgood
    generalize appendTags ts w = q at *
    obtain ⟨m, w'⟩ := q
    simp only at *
    have hkt : keptTags (ss ++ [⟨ts, m⟩]) (ns ++ [n]) = keptTags ss ns ++ ts.take n := by
      unfold keptTags
      rw [List.zipWith_append h1.symm]
      simp
    refine ⟨ns ++ [n], p', by simp [h1], fun i hi hi' => ?_, by rw [hkt, a5], a4, ?_⟩
    · by_cases hlt : i < ss.length
      · rw [List.getElem_append_left hlt, List.getElem_append_left (by omega)]
        exact h2 i hlt (by omega)
      · have : i = ss.length := by simp at hi; omega
        subst this
        have e1 : (ns ++ [n])[ss.length] = n := by
          rw [List.getElem_append_right (by omega)]
          simp [h1]
        rw [e1]
        simp
        omega
    · rw [hkt]
      intro t ht
      rcases List.mem_append.mp ht with ht | ht
      · exact h5 t ht
      · exact hgood t (List.mem_of_mem_take ht)

/-- **C95** After any number of sessions, each cut short anywhere, the log holds for each session, in order, the tags
that were reported as written and at most one more, the one whose `serialize` failed; nothing else; and opening it
succeeds. -/
theorem C95_log (hr : MemoryOk) (e : Engine P) {ss : List (Session P)} {content : Bytes} (h : LogHistory e ss content)
    (hts : ∀ s ∈ ss, ∀ t ∈ s.tags, MapsOk t ∧ PayloadsOk t ∧ Supported e t) :
    ∃ ns : List Nat, ns.length = ss.length ∧
      (∀ (i : Nat) (h : i < ss.length) (h' : i < ns.length),
        ss[i].reported ≤ ns[i] ∧ ns[i] ≤ ss[i].reported + 1 ∧ ns[i] ≤ ss[i].tags.length) ∧
      (openLog e content).ended = none ∧
      (openLog e content).tags.length = (keptTags ss ns).length ∧
      ∀ (i : Nat) (h : i < (keptTags ss ns).length) (h' : i < (openLog e content).tags.length),
        Same (keptTags ss ns)[i] (openLog e content).tags[i] := by
  obtain ⟨ns, p, h1, h2, rfl, h4, h5⟩ := log_inv hr e h hts
  refine ⟨ns, h1, h2, ?_⟩
  rw [openLog_eq hr e _ p h5 h4]
  refine ⟨rfl, by simp, fun i h h' => ?_⟩
  simp only [List.getElem_map]
  exact same_canon (h5 _ (List.getElem_mem h)).1

/-- **C95** Whatever a session does, and wherever it is cut: the tags it found in the log are found again by the next
one, the very same, before anything the session added; and their bytes are untouched. -/
theorem C95_never_lost (hr : MemoryOk) (e : Engine P) {ss : List (Session P)} {content : Bytes}
    (h : LogHistory e ss content) (hss : ∀ s ∈ ss, ∀ t ∈ s.tags, MapsOk t ∧ PayloadsOk t ∧ Supported e t)
    {ω : Type} [Writer ω] (J : Journal ω) (w : ω) (ok : J.ok w) (start : J.out w = wholeTags e content)
    (ts : List (Tag P)) (hts : ∀ t ∈ ts, MapsOk t ∧ PayloadsOk t ∧ Supported e t) :
    (openLog e content).tags <+: (openLog e (J.out (appendTags ts w).2)).tags ∧
    wholeTags e content <+: wholeTags e (J.out (appendTags ts w).2) := by
  obtain ⟨ns, p, h1, h2, rfl, h4, h5⟩ := log_inv hr e h hss
  obtain ⟨n, p', -, -, -, a4, a5⟩ := session_inv hr e _ p h5 h4 J w ok start ts hts
  have hgood : ∀ t ∈ keptTags ss ns ++ ts.take n, MapsOk t ∧ PayloadsOk t ∧ Supported e t := by
    intro t ht
    rcases List.mem_append.mp ht with ht | ht
    · exact h5 t ht
    · exact hts t (List.mem_of_mem_take ht)
  rw [a5, openLog_eq hr e _ p h5 h4, openLog_eq hr e _ p' hgood a4, wholeTags_eq hr e _ p h5 h4,
    wholeTags_eq hr e _ p' hgood a4]
  simp

end

section
attribute [local instance] bigEnv

/-- **C95** Dropping what is behind the last whole tag is needed.  The string "ab" is cut after three bytes and the ILInt
tag of 5 is written behind it: what is read is the string "a", newline, which nobody wrote, and the ILInt tag is lost. -/
theorem C95_must_truncate :
    enc (.atom (.string 17 "ab") : Tag Empty) = [17, 2, 97, 98] ∧ enc (.atom (.ilint 10 5) : Tag Empty) = [10, 5] ∧
    openLog (Engine.std true : Engine Empty) ([17, 2, 97] ++ [10, 5]) = ⟨[5], [.atom (.string 17 "a\n")], none⟩ := by
  refine ⟨by decide +kernel, by decide +kernel, ?_⟩
  have hm : (match openLog (Engine.std true : Engine Empty) ([17, 2, 97] ++ [10, 5]) with
      | ⟨[5], [.atom (.string 17 "a\n")], none⟩ => true
      | _ => false) = true := by
    simp only [openLog, Consumer.feed, Consumer.start, List.nil_append, List.cons_append, List.length, Consumer.drain]
    rw [deserialize_eq]
    decide +kernel
  split at hm
  · assumption
  · cases hm

/-- Three tags; the destination fails after one byte of the second string. -/
def logTags : List (Tag Empty) := [.atom (.string 17 "ab"), .atom (.string 17 "cd"), .atom (.ilint 10 5)]
def failing : WriteWriter := ⟨[], [.accept 9, .accept 9, .accept 9, .accept 9, .accept 9, .accept 1, .error (.other 5)]⟩

theorem logTags_ok : ∀ t ∈ logTags, MapsOk t ∧ PayloadsOk t ∧ Supported (Engine.std true) t := by
  intro t ht
  refine ⟨?_, sample_payloads t, ?_⟩
  · exact mapsOk_of_B (by revert t; decide +kernel)
  · exact supported_of_B (by revert t; decide +kernel)

-- two sessions, the first one cut: the second finds the first string and writes its tags behind it
example : ∃ content, LogHistory (Engine.std true) [⟨logTags, 1⟩, ⟨logTags, 3⟩] content ∧
    content = [17, 2, 97, 98] ++ [17, 2, 97, 98, 17, 2, 99, 100, 10, 5] := by
  have h1 : (appendTags logTags failing) = (1, ⟨[17, 2, 97, 98, 17, 2, 99], [.error (.other 5)]⟩) := by decide +kernel
  have h2 : wholeTags (Engine.std true : Engine Empty) [17, 2, 97, 98, 17, 2, 99] = [17, 2, 97, 98] := by
    have := wholeTags_eq bigEnv_ok (Engine.std true) [logTags[0]] [17, 2, 99]
      (fun t ht => logTags_ok t (by rw [List.mem_singleton.mp ht]; exact List.getElem_mem _))
      (.inr ⟨logTags[1], ⟨(logTags_ok _ (List.getElem_mem _)).1, (logTags_ok _ (List.getElem_mem _)).2.2⟩,
        ⟨[100], by decide +kernel⟩, by decide +kernel⟩)
    have h3 : (List.map enc [logTags[0]]).flatten = [17, 2, 97, 98] := by decide +kernel
    rw [h3] at this
    exact this
  have g1 : LogHistory (Engine.std true : Engine Empty) [⟨logTags, 1⟩] [17, 2, 97, 98, 17, 2, 99] := by
    have := LogHistory.session (e := (Engine.std true : Engine Empty)) .empty WriteWriter.journal failing trivial rfl logTags
    rw [h1] at this
    exact this
  have h4 : (appendTags logTags (⟨[17, 2, 97, 98], []⟩ : WriteWriter)) =
      (3, ⟨[17, 2, 97, 98, 17, 2, 97, 98, 17, 2, 99, 100, 10, 5], []⟩) := by decide +kernel
  have g2 := LogHistory.session g1 WriteWriter.journal ⟨[17, 2, 97, 98], []⟩ trivial h2.symm logTags
  rw [h4] at g2
  exact ⟨_, g2, rfl⟩

end

end Verif.Props
