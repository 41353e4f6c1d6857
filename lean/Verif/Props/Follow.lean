import Verif.Props.Faults
import Verif.Props.Journal
import Verif.Props.Requests
import Verif.Spec.Follow
/-!
# C102: following a log while it is being written
-/
namespace Verif.Props
open Verif Verif.Spec
variable {P : Type}

/-- What `read_exact` does on a file that grows. -/
theorem live_exact (ev : List (Bytes × ReadEv)) : ∀ (c : Bytes) (p n : Nat),
    ∃ s' : LiveFile, s'.final = c ++ (ev.map Prod.fst).flatten ∧ s'.coming.length ≤ ev.length ∧
      (0 < n → ev ≠ [] → s'.coming.length < ev.length) ∧
      (n ≤ ((c ++ (ev.map Prod.fst).flatten).drop p).length ∧ s'.pos = p + n ∧
          LiveFile.exact ev c p n = (.ok (((c ++ (ev.map Prod.fst).flatten).drop p).take n), s') ∨
        (∃ e, LiveFile.exact ev c p n = (.err e, s')) ∧ (ev = [] → ((c.drop p).length < n))) := by
  induction ev with
  | nil =>
    intro c p n
    cases n with
    | zero => exact ⟨⟨c, p, []⟩, by simp [LiveFile.final], by simp, by simp, .inl ⟨by simp, rfl, by simp [LiveFile.exact]⟩⟩
    | succ n =>
      by_cases h : n + 1 ≤ (c.drop p).length
      · refine ⟨⟨c, p + (n + 1), []⟩, by simp [LiveFile.final], by simp, by simp, .inl ⟨by simpa using h, rfl, ?_⟩⟩
        simp only [LiveFile.exact, if_pos h, List.map_nil, List.flatten_nil, List.append_nil]
      · refine ⟨⟨c, p + (c.drop p).length, []⟩, by simp [LiveFile.final], by simp, by simp, .inr ⟨⟨.unexpectedEof, ?_⟩, fun _ => by omega⟩⟩
        simp only [LiveFile.exact, if_neg h]
  | cons a ev ih =>
    intro c p n
    cases n with
    | zero =>
      exact ⟨⟨c, p, a :: ev⟩, rfl, by simp, by simp, .inl ⟨by simp, rfl, by
        obtain ⟨a, k | e⟩ := a <;> simp [LiveFile.exact]⟩⟩
    | succ n =>
      have hF : ∀ x, c ++ ((((x, a.2) :: ev).map Prod.fst).flatten) = c ++ x ++ (ev.map Prod.fst).flatten := by
        intro x; simp
      obtain ⟨a, k | e⟩ := a
      · rw [hF a]
        by_cases hb : (((c ++ a).drop p).take (min k (n + 1))).isEmpty = true
        · refine ⟨⟨c ++ a, p, ev⟩, rfl, by simp, by simp, .inr ⟨⟨.unexpectedEof, ?_⟩, by simp⟩⟩
          simp only [LiveFile.exact, if_pos hb]
        · have hj : ∃ j, (((c ++ a).drop p).take (min k (n + 1))).length = j := ⟨_, rfl⟩
          obtain ⟨j, hj⟩ := hj
          have hj1 : j ≤ n + 1 := by rw [← hj, List.length_take]; omega
          have hj2 : j ≤ ((c ++ a).drop p).length := by rw [← hj, List.length_take]; omega
          have hbt : ((c ++ a).drop p).take (min k (n + 1)) = ((c ++ a).drop p).take j := by
            rw [← hj, List.length_take, ← List.take_eq_take_min]
          have hj0 : 0 < j := by
            rw [← hj]
            rcases hq : ((c ++ a).drop p).take (min k (n + 1)) with _ | ⟨x, y⟩
            · rw [hq] at hb; simp at hb
            · simp
          have hp : p + j ≤ (c ++ a).length := by have := hj2; rw [List.length_drop] at this; omega
          obtain ⟨s', h1, h2, -, h4⟩ := ih (c ++ a) (p + j) (n + 1 - j)
          refine ⟨s', h1, by simp only [List.length_cons]; omega, by simp only [List.length_cons]; omega, ?_⟩
          rcases h4 with ⟨g1, g2, g3⟩ | ⟨⟨x, g1⟩, -⟩
          · refine .inl ⟨?_, by omega, ?_⟩
            · have := List.length_append (as := c ++ a) (bs := (ev.map Prod.fst).flatten)
              rw [List.length_drop] at g1 ⊢; omega
            · simp only [LiveFile.exact, if_neg hb]
              rw [hj, g3]
              simp only [Prod.mk.injEq, Res.ok.injEq, and_true]
              have e1 : ((c ++ a ++ (ev.map Prod.fst).flatten).drop p).take j = ((c ++ a).drop p).take j := by
                rw [List.drop_append_of_le_length (by omega), List.take_append_of_le_length hj2]
              rw [hbt, ← e1, ← List.drop_drop, ← List.take_add]
              congr 1; omega
          · refine .inr ⟨⟨x, ?_⟩, by simp⟩
            simp only [LiveFile.exact, if_neg hb]
            rw [hj, g1]
      · rw [hF a]
        by_cases he : e = .interrupted
        · obtain ⟨s', h1, h2, -, h4⟩ := ih (c ++ a) p (n + 1)
          refine ⟨s', h1, by simp only [List.length_cons]; omega, by simp only [List.length_cons]; omega, ?_⟩
          have hx : LiveFile.exact ((a, .error e) :: ev) c p (n + 1) = LiveFile.exact ev (c ++ a) p (n + 1) := by
            simp only [LiveFile.exact, if_pos he]
          rw [hx]
          rcases h4 with h | ⟨h, -⟩
          · exact .inl h
          · exact .inr ⟨h, by simp⟩
        · refine ⟨⟨c ++ a, p, ev⟩, rfl, by simp, by simp, .inr ⟨⟨e, ?_⟩, by simp⟩⟩
          simp only [LiveFile.exact, if_neg he]

theorem live_readAll (s : LiveFile) (n : Nat) :
    ∃ s' : LiveFile, s'.final = s.final ∧ s'.coming.length ≤ s.coming.length ∧
      (0 < n → s.coming ≠ [] → s'.coming.length < s.coming.length) ∧
      (n ≤ (s.final.drop s.pos).length ∧ s'.pos = s.pos + n ∧
          (Reader.readAll n : Act IoErr LiveFile Bytes) s = (.ok ((s.final.drop s.pos).take n), s') ∨
        (∃ e, (Reader.readAll n : Act IoErr LiveFile Bytes) s = (.err e, s')) ∧
          (s.coming = [] → (s.final.drop s.pos).length < n)) := by
  obtain ⟨s', h1, h2, h3, h4⟩ := live_exact s.coming s.content s.pos n
  refine ⟨s', h1, h2, h3, ?_⟩
  show n ≤ (s.final.drop s.pos).length ∧ s'.pos = s.pos + n ∧
          LiveFile.readAll n s = (.ok ((s.final.drop s.pos).take n), s') ∨ (∃ e, LiveFile.readAll n s = (.err e, s')) ∧ _
  unfold LiveFile.readAll
  rcases h4 with ⟨g1, g2, g3⟩ | ⟨⟨e, g1⟩, g2⟩
  · exact .inl ⟨g1, g2, by rw [g3]; rfl⟩
  · refine .inr ⟨⟨_, by rw [g1]; rfl⟩, fun h => ?_⟩
    have := g2 h
    unfold LiveFile.final
    rw [h]
    simpa using this

theorem live_read (s : LiveFile) :
    ∃ s' : LiveFile, s'.final = s.final ∧ s'.coming.length ≤ s.coming.length ∧
      (s.coming ≠ [] → s'.coming.length < s.coming.length) ∧
      ((∃ b r, s.final.drop s.pos = b :: r ∧ s'.pos = s.pos + 1 ∧
          (Reader.read : Act IoErr LiveFile Byte) s = (.ok b, s')) ∨
        (∃ e, (Reader.read : Act IoErr LiveFile Byte) s = (.err e, s')) ∧
          (s.coming = [] → s.final.drop s.pos = [])) := by
  obtain ⟨s', h1, h2, h3, h4⟩ := live_exact s.coming s.content s.pos 1
  refine ⟨s', h1, h2, h3 (by omega), ?_⟩
  show (∃ b r, s.final.drop s.pos = b :: r ∧ s'.pos = s.pos + 1 ∧ LiveFile.read s = (.ok b, s')) ∨
    (∃ e, LiveFile.read s = (.err e, s')) ∧ _
  unfold LiveFile.read
  rcases h4 with ⟨g1, g2, g3⟩ | ⟨⟨e, g1⟩, g2⟩
  · rw [g3]
    unfold LiveFile.final
    cases hq : (s.content ++ (s.coming.map Prod.fst).flatten).drop s.pos with
    | nil => rw [hq] at g1; simp at g1
    | cons b r => exact .inl ⟨b, r, rfl, g2, rfl⟩
  · refine .inr ⟨⟨_, by rw [g1]⟩, fun h => ?_⟩
    have := g2 h
    unfold LiveFile.final
    rw [h]
    simp only [List.map_nil, List.flatten_nil, List.append_nil]
    exact List.eq_nil_of_length_eq_zero (by omega)

/-- A file that will hold `c`, as a source that may fail. -/
def _root_.Verif.Spec.LiveFile.faulty (c : Bytes) : FaultyView LiveFile where
  R s bs := s.final = c ∧ s.pos ≤ c.length ∧ bs = c.drop s.pos
  read_any := by
    rintro s bs ⟨rfl, hp, rfl⟩
    obtain ⟨s', h1, -, -, ⟨b, r, h2, h3, h4⟩ | ⟨⟨e, h2⟩, -⟩⟩ := live_read s
    · have hl := congrArg List.length h2
      simp only [List.length_drop, List.length_cons] at hl
      refine .inl ⟨b, r, s', h2, h4, h1, by omega, ?_⟩
      rw [h3, ← List.drop_drop, h2]; rfl
    · exact .inr ⟨e, s', h2⟩
  readAll_any := by
    rintro s bs n ⟨rfl, hp, rfl⟩
    obtain ⟨s', h1, -, -, ⟨h2, h3, h4⟩ | ⟨⟨e, h2⟩, -⟩⟩ := live_readAll s n
    · refine .inl ⟨h2, s', h4, h1, ?_, ?_⟩
      · rw [List.length_drop] at h2; omega
      · rw [h3, List.drop_drop]
    · exact .inr ⟨e, s', h2⟩

/-- A file that is complete. -/
def _root_.Verif.Spec.LiveFile.view : View LiveFile where
  R s bs := s.coming = [] ∧ s.pos ≤ s.final.length ∧ bs = s.final.drop s.pos
  E _ := True
  read_cons := by
    rintro s b bs ⟨hc, hp, hb⟩
    obtain ⟨s', h1, h0, -, ⟨b', r, h2, h3, h4⟩ | ⟨-, h2⟩⟩ := live_read s
    · have hl := congrArg List.length h2
      simp only [List.length_drop, List.length_cons] at hl
      rw [← hb, List.cons.injEq] at h2
      rw [hc] at h0
      refine ⟨s', by rw [h4, h2.1], List.eq_nil_of_length_eq_zero (by simpa using h0), by rw [h1]; omega, ?_⟩
      rw [h1, h3, ← List.drop_drop, ← hb]; rfl
    · rw [h2 hc] at hb; cases hb
  read_nil := by
    rintro s ⟨hc, hp, hb⟩
    obtain ⟨s', h1, -, -, ⟨b', r, h2, h3, h4⟩ | ⟨⟨e, h2⟩, -⟩⟩ := live_read s
    · rw [h2] at hb; cases hb
    · exact ⟨e, s', h2, trivial⟩
  readAll_ok := by
    rintro s bs n ⟨hc, hp, rfl⟩ hn
    obtain ⟨s', h1, h0, -, ⟨h2, h3, h4⟩ | ⟨-, h2⟩⟩ := live_readAll s n
    · rw [hc] at h0
      refine ⟨s', h4, List.eq_nil_of_length_eq_zero (by simpa using h0), ?_, ?_⟩
      · rw [List.length_drop] at h2; rw [h1]; omega
      · rw [h1, h3, List.drop_drop]
    · have := h2 hc; omega
  readAll_short := by
    rintro s bs n ⟨hc, hp, rfl⟩ hn
    obtain ⟨s', h1, -, -, ⟨h2, -, -⟩ | ⟨⟨e, h2⟩, -⟩⟩ := live_readAll s n
    · omega
    · exact ⟨e, s', h2, trivial⟩

section
variable [TagPayload P] [Env]

/-- Reading keeps what the file will hold, and uses up one of the coming calls. -/
theorem live_deserialize (e : Engine P) (s : LiveFile) :
    (Factory.deserialize e LiveFile s).2.final = s.final ∧
    (Factory.deserialize e LiveFile s).2.coming.length ≤ s.coming.length ∧
    (s.coming ≠ [] → (Factory.deserialize e LiveFile s).2.coming.length < s.coming.length) := by
  obtain ⟨k, hk⟩ : ∃ k, PS.deserialize e = Prog.read () k := ⟨_, rfl⟩
  rw [C76_tree e s, hk]
  simp only [Prog.run]
  obtain ⟨s', h1, h2, h3, h4⟩ := live_read s
  have keep : ∀ (T : Prog Unit (Tag P)), (T.run s').2.2.final = s'.final ∧
      (T.run s').2.2.coming.length ≤ s'.coming.length := by
    intro T
    refine run_keeps (fun x : LiveFile => x.final = s'.final ∧ x.coming.length ≤ s'.coming.length) ?_ ?_ T s' ⟨rfl, Nat.le_refl _⟩
    · rintro x ⟨g1, g2⟩
      obtain ⟨x', f1, f2, -, ⟨_, _, -, -, f⟩ | ⟨⟨_, f⟩, -⟩⟩ := live_read x <;> rw [f] <;>
        exact ⟨f1.trans g1, Nat.le_trans f2 g2⟩
    · rintro n x ⟨g1, g2⟩
      obtain ⟨x', f1, f2, -, ⟨-, -, f⟩ | ⟨⟨_, f⟩, -⟩⟩ := live_readAll x n <;> rw [f] <;>
        exact ⟨f1.trans g1, Nat.le_trans f2 g2⟩
  rcases h4 with ⟨b, r, -, -, h⟩ | ⟨⟨x, h⟩, -⟩
  · rw [h]
    obtain ⟨g1, g2⟩ := keep (k b)
    exact ⟨g1.trans h1, Nat.le_trans g2 h2, fun hc => Nat.lt_of_le_of_lt g2 (h3 hc)⟩
  · rw [h]
    exact ⟨h1, h2, h3⟩

/-- What holds for the follower at all times. -/
def FollowInv (ts : List (Tag P)) (bss : List Bytes) (F : Bytes) (f : Follower P) : Prop :=
  f.ended = none ∧ f.file.final = F ∧ f.tags.length ≤ ts.length ∧
    (∀ (i : Nat) (h : i < ts.length) (h' : i < f.tags.length), Same ts[i] f.tags[i]) ∧
    f.next = (bss.take f.tags.length).flatten.length ∧ f.next ≤ F.length

theorem follow_step (hr : MemoryOk) (e : Engine P) (ts : List (Tag P)) (bss : List Bytes)
    (hts : ∀ t ∈ ts, MapsOk t ∧ PayloadsOk t ∧ Supported e t) (hb : ts.map Tag.toBytes = bss.map .ok) {F : Bytes}
    (hF : F <+: bss.flatten) (f : Follower P) (hI : FollowInv ts bss F f) :
    FollowInv ts bss F (f.attempt e) ∧ f.tags.length ≤ (f.attempt e).tags.length ∧
    (f.attempt e).file.coming.length ≤ f.file.coming.length ∧
    (f.file.coming ≠ [] → (f.attempt e).file.coming.length < f.file.coming.length) ∧
    (f.file.coming = [] → f.tags.length < ts.length → (bss.take (f.tags.length + 1)).flatten.length ≤ F.length →
      (f.attempt e).tags.length = f.tags.length + 1) := by
  obtain ⟨file, next, tags, ended⟩ := f
  obtain ⟨h1, h2, h3, h4, h5, h6⟩ := hI
  simp only at h1 h2 h3 h4 h5 h6
  subst h1
  have hlen : bss.length = ts.length := by simpa using (congrArg List.length hb).symm
  have hd := live_deserialize e { file with pos := next }
  have hR : (LiveFile.faulty F).R { file with pos := next } (F.drop next) := ⟨h2, h6, rfl⟩
  have hc := C97_faults e (LiveFile.faulty F) ByteArrayReader.view.toView hR (ByteArrayReader.view_new (F.drop next))
  -- what the complete bytes say
  have key : (∃ i, (Factory.deserialize e ByteArrayReader (.new (F.drop next))).1 = .err (.ioError i)) ∧
        ¬ (tags.length < ts.length ∧ (bss.take (tags.length + 1)).flatten.length ≤ F.length) ∨
      ∃ (hj : tags.length < ts.length) (t : Tag P) (r : ByteArrayReader) (x : Bytes),
        Factory.deserialize e ByteArrayReader (.new (F.drop next)) = (.ok t, r) ∧ Same ts[tags.length] t ∧
        ByteArrayReader.view.R r x ∧ x = F.drop (bss.take (tags.length + 1)).flatten.length ∧
        (bss.take (tags.length + 1)).flatten.length ≤ F.length := by
    rcases Nat.lt_or_ge tags.length ts.length with hj | hj
    · have hjb : tags.length < bss.length := by omega
      obtain ⟨hm, hp, hs⟩ := hts _ (List.getElem_mem hj)
      have hbj : (ts[tags.length]).toBytes = .ok bss[tags.length] := by
        have := congrArg (fun l => l[tags.length]?) hb
        simpa [hj, hjb] using this
      have htk : bss.take (tags.length + 1) = bss.take tags.length ++ [bss[tags.length]] := by
        rw [List.take_succ, List.getElem?_eq_getElem hjb]; rfl
      have hn : (bss.take (tags.length + 1)).flatten.length = next + bss[tags.length].length := by
        rw [htk, List.flatten_append, List.length_append, h5]; simp
      rw [hn]
      generalize hbs : bss[tags.length] = bs at *
      obtain ⟨z, hz⟩ := hF
      have hsplit : F.drop next ++ z = bs ++ (bss.drop (tags.length + 1)).flatten := by
        rw [← List.drop_append_of_le_length h6, hz]
        conv => lhs; rw [← List.take_append_drop (tags.length + 1) bss]
        rw [htk, List.flatten_append, List.flatten_append, h5, List.append_assoc, List.drop_left]
        simp
      have hdl : (F.drop next).length = F.length - next := List.length_drop
      by_cases hw : next + bs.length ≤ F.length
      · right
        have hx : F.drop next = bs ++ F.drop (next + bs.length) := by
          have := congrArg (List.take bs.length) hsplit
          rw [List.take_left, List.take_append_of_le_length (by omega)] at this
          rw [← List.drop_drop]
          conv => lhs; rw [← List.take_append_drop bs.length (F.drop next), this]
        obtain ⟨t, r, g1, g2, g3⟩ := C31_self_delimiting hr e _ hm hp hs hbj ByteArrayReader.view.toView
          (.new (F.drop next)) (F.drop (next + bs.length)) (by rw [← hx]; exact ByteArrayReader.view_new _)
        exact ⟨hj, t, r, _, g1, g2, g3, rfl, hw⟩
      · left
        refine ⟨?_, fun h => hw h.2⟩
        obtain ⟨t, r, g1, -, g3⟩ := C31_self_delimiting hr e _ hm hp hs hbj ByteArrayReader.view.toView
          (.new (bs ++ [])) [] (ByteArrayReader.view_new _)
        have hx : bs = F.drop next ++ bs.drop (F.drop next).length := by
          have := congrArg (List.take (F.drop next).length) hsplit
          rw [List.take_left, List.take_append_of_le_length (by omega)] at this
          conv => lhs; rw [← List.take_append_drop (F.drop next).length bs, ← this]
        obtain ⟨i, s₂, g⟩ := C34_truncated_stream e ByteArrayReader.view.toView ByteArrayReader.view.toView
          (.new (bs ++ [])) r (.new (F.drop next)) (F.drop next) (bs.drop (F.drop next).length) [] t
          (by rw [← hx]; exact ByteArrayReader.view_new _) g1 g3
          (fun h => by
            have := congrArg List.length h
            rw [List.length_drop, hdl] at this
            simp only [List.length_nil] at this
            omega) (ByteArrayReader.view_new _)
        exact ⟨i, by rw [g]⟩
    · left
      refine ⟨?_, fun h => by omega⟩
      have : F.drop next = [] := by
        apply List.drop_eq_nil_of_le
        rw [h5, List.take_of_length_le (by omega)]
        exact hF.length_le
      obtain ⟨i, s', g⟩ := read_at_end e ByteArrayReader.view.toView (.new (F.drop next))
        (by rw [this]; exact ByteArrayReader.view_new _)
      exact ⟨i, by rw [g]⟩
  rcases hdq : Factory.deserialize e LiveFile { file with pos := next } with ⟨r, s⟩
  rw [hdq] at hd hc
  obtain ⟨d1, d2, d3⟩ := hd
  simp only at d1 d2 d3 hc
  have wait : ∀ i, r = .err (.ioError i) →
      (Follower.attempt e ⟨file, next, tags, none⟩) = ⟨s, next, tags, none⟩ := by
    rintro i rfl
    unfold Follower.attempt
    simp only [hdq]
  rcases hc with ⟨i, hi⟩ | ⟨hc1, hc2⟩
  · rw [wait i hi]
    refine ⟨⟨rfl, d1.trans h2, h3, h4, h5, h6⟩, Nat.le_refl _, d2, d3, fun hcm hj hw => ?_⟩
    -- nothing is coming: the attempt cannot fail
    exfalso
    rcases key with ⟨-, h⟩ | ⟨-, t, q, x, g1, -, -, -, -⟩
    · exact h ⟨hj, hw⟩
    · have hv : LiveFile.view.R { file with pos := next } (F.drop next) := ⟨hcm, by
          rw [show LiveFile.final { file with pos := next } = F from h2]; exact h6, by
          rw [show LiveFile.final { file with pos := next } = F from h2]⟩
      have m1 := deserialize_matches e LiveFile.view hv
      have m2 := deserialize_matches e ByteArrayReader.view.toView (ByteArrayReader.view_new (F.drop next))
      rw [hdq, hi] at m1
      rw [g1] at m2
      cases hq : Parser.top e (F.drop next) with
      | ok t' r' => rw [hq] at m1; obtain ⟨_, h, -⟩ := m1; cases h
      | short => rw [hq] at m2; obtain ⟨_, _, h, -⟩ := m2; cases h
      | fail x => rw [hq] at m2; obtain ⟨_, h⟩ := m2; cases h
      | panic => rw [hq] at m2; obtain ⟨_, h⟩ := m2; cases h
      | diverge => rw [hq] at m2; obtain ⟨_, h⟩ := m2; cases h
  · rcases key with ⟨⟨i, hi⟩, hnw⟩ | ⟨hj, t, q, x, g1, g2, g3, g4, g5⟩
    · rw [wait i (hc1.trans hi)]
      exact ⟨⟨rfl, d1.trans h2, h3, h4, h5, h6⟩, Nat.le_refl _, d2, d3, fun _ hj hw => absurd ⟨hj, hw⟩ hnw⟩
    · rw [g1] at hc1 hc2
      simp only at hc1 hc2
      subst hc1
      have hat : Follower.attempt e ⟨file, next, tags, none⟩ = ⟨s, s.pos, tags ++ [t], none⟩ := by
        unfold Follower.attempt
        simp only [hdq]
      obtain ⟨rest, ⟨k1, k2, k3⟩, k4⟩ := hc2 rfl
      have hx := ByteArrayReader.view.toView.unique k4 g3
      have hpos : s.pos = (bss.take (tags.length + 1)).flatten.length := by
        have := congrArg List.length (k3.symm.trans (hx.trans g4))
        rw [List.length_drop, List.length_drop] at this
        omega
      rw [hat]
      refine ⟨⟨rfl, k1, ?_, ?_, ?_, k2⟩, ?_, d2, d3, fun _ _ _ => ?_⟩
      · simp only [List.length_append, List.length_singleton]; omega
      · intro i hi hi'
        simp only [List.length_append, List.length_singleton] at hi'
        rcases Nat.lt_or_ge i tags.length with h | h
        · rw [List.getElem_append_left h]; exact h4 i hi h
        · obtain rfl : i = tags.length := by omega
          simpa using g2
      · simp only [List.length_append, List.length_singleton]; exact hpos
      · simp
      · simp

/-- **C102** A log is written while it is read, and the bytes arrive at any time, also between the reads of one tag.
After any number of attempts the follower has delivered the first tags of the log, in order, once, and no other; it
stands where the next one starts, and has not given up. -/
theorem C102_follow (hr : MemoryOk) (e : Engine P) (ts : List (Tag P)) (bss : List Bytes)
    (hts : ∀ t ∈ ts, MapsOk t ∧ PayloadsOk t ∧ Supported e t) (hb : ts.map Tag.toBytes = bss.map .ok)
    (file : LiveFile) (hF : file.final <+: bss.flatten) (n : Nat) :
    ∃ f, (Follower.start file).attempts e n = f ∧ f.ended = none ∧ f.tags.length ≤ ts.length ∧
      (∀ (i : Nat) (h : i < ts.length) (h' : i < f.tags.length), Same ts[i] f.tags[i]) ∧
      f.next = (bss.take f.tags.length).flatten.length := by
  have h : ∀ n, FollowInv ts bss file.final ((Follower.start file).attempts e n) := by
    intro n
    induction n with
    | zero => exact ⟨rfl, rfl, by simp [Follower.attempts, Follower.start],
        fun i _ h => by simp [Follower.attempts, Follower.start] at h, rfl, Nat.zero_le _⟩
    | succ n ih => exact (follow_step hr e ts bss hts hb hF _ ih).1
  obtain ⟨h1, -, h3, h4, h5, -⟩ := h n
  exact ⟨_, rfl, h1, h3, h4, h5⟩

/-- **C102** It catches up: every tag that will be whole in the file has been delivered after so many attempts as there
are reads that may go wrong, and one more for each tag. -/
theorem C102_catches_up (hr : MemoryOk) (e : Engine P) (ts : List (Tag P)) (bss : List Bytes)
    (hts : ∀ t ∈ ts, MapsOk t ∧ PayloadsOk t ∧ Supported e t) (hb : ts.map Tag.toBytes = bss.map .ok)
    (file : LiveFile) (hF : file.final <+: bss.flatten) (k : Nat) (hk : k ≤ ts.length)
    (hw : (bss.take k).flatten.length ≤ file.final.length) (n : Nat) (hn : file.coming.length + k ≤ n) :
    k ≤ ((Follower.start file).attempts e n).tags.length := by
  have mono : ∀ i j, i ≤ j → (bss.take i).flatten.length ≤ (bss.take j).flatten.length := by
    intro i j hij
    rw [← List.take_append_drop i (bss.take j), List.take_take, Nat.min_eq_left hij, List.flatten_append,
      List.length_append]
    omega
  have h : ∀ n, FollowInv ts bss file.final ((Follower.start file).attempts e n) ∧
      (k ≤ ((Follower.start file).attempts e n).tags.length ∨
        n + ((Follower.start file).attempts e n).file.coming.length ≤
          file.coming.length + ((Follower.start file).attempts e n).tags.length) := by
    intro n
    induction n with
    | zero => exact ⟨⟨rfl, rfl, by simp [Follower.attempts, Follower.start],
        fun i _ h => by simp [Follower.attempts, Follower.start] at h, rfl, Nat.zero_le _⟩,
        .inr (by simp [Follower.attempts, Follower.start])⟩
    | succ n ih =>
      obtain ⟨hI, ih⟩ := ih
      obtain ⟨s1, s2, s3, s4, s5⟩ := follow_step hr e ts bss hts hb hF _ hI
      refine ⟨s1, ?_⟩
      simp only [Follower.attempts]
      generalize (Follower.start file).attempts e n = f at *
      by_cases hkf : k ≤ f.tags.length
      · exact .inl (Nat.le_trans hkf s2)
      · right
        have ih : n + f.file.coming.length ≤ file.coming.length + f.tags.length := by omega
        by_cases hc : f.file.coming = []
        · have := s5 hc (by omega) (Nat.le_trans (mono _ _ (by omega)) hw)
          rw [hc] at ih
          simp only [List.length_nil] at ih
          have h0 : (f.attempt e).file.coming.length = 0 := by rw [hc] at s3; simpa using s3
          omega
        · have := s4 hc
          omega
  rcases (h n).2 with h | h <;> omega

end

section
attribute [local instance] bigEnv

/-- **C102** Going back is needed: a follower that goes on where a failed attempt left the file takes the bytes of a
byte array, when they arrive, for a string tag. -/
theorem C102_must_go_back : ∃ file : LiveFile, (.atom (.byteArray [17, 0]) : Tag Empty).toBytes = .ok file.final ∧
    (match Factory.deserialize (Engine.std false : Engine Empty) LiveFile file with
      | (.err (.ioError _), s) =>
        (match Factory.deserialize (Engine.std false : Engine Empty) LiveFile s with
          | (.ok (.atom (.string id v)), _) => decide (id = 17 ∧ v = "") | _ => false)
      | _ => false) = true := by
  refine ⟨⟨[16], 0, [([2], .chunk 9), ([], .chunk 9), ([], .chunk 9), ([17], .chunk 9), ([0], .chunk 9)]⟩, rfl, ?_⟩
  rw [deserialize_eq]; decide +kernel

-- a tag that arrives in pieces, with an interrupt on the way: the first attempt comes too early, the second reads it
example : (match (Follower.start ⟨[], 0, [([17], .chunk 9), ([], .chunk 9), ([2], .error .interrupted), ([97], .chunk 9),
      ([98, 10], .chunk 1), ([], .chunk 1), ([], .chunk 1)]⟩).attempts (Engine.std true : Engine Empty) 2 with
    | ⟨⟨_, 4, _⟩, 4, [.atom (.string 17 "ab")], none⟩ => true
    | _ => false) = true := by
  simp only [Follower.attempts, Follower.attempt, Follower.start]
  rw [deserialize_eq]
  decide +kernel

-- the tags of `C102_follow` and `C102_catches_up`: all of the first and a part of the second arrive at some time
example (file : LiveFile) (h : file.final = enc sample ++ (enc sample).take 3) (n : Nat) (hn : file.coming.length + 1 ≤ n) :
    ∃ t, ((Follower.start file).attempts sampleEngine n).tags[0]? = some t ∧ Same sample t := by
  have hts : ∀ t ∈ [sample, sample], MapsOk t ∧ PayloadsOk t ∧ Supported sampleEngine t := fun t ht => by
    simp only [List.mem_cons, List.not_mem_nil, or_false, or_self] at ht
    subst ht
    exact ⟨sample_maps, sample_payloads _, sample_supported⟩
  have hb : [sample, sample].map Tag.toBytes = [enc sample, enc sample].map .ok := by
    simp [toBytes_eq_enc bigEnv_ok sample_maps (sample_payloads _) sample_supported]
  have hF : file.final <+: [enc sample, enc sample].flatten := by
    rw [h]
    simp only [List.flatten_cons, List.flatten_nil, List.append_nil]
    exact List.prefix_append_right_inj _ |>.mpr (List.take_prefix _ _)
  have h1 := C102_catches_up bigEnv_ok sampleEngine _ _ hts hb file hF 1 (by simp) (by rw [h]; simp) n hn
  obtain ⟨f, hf, -, -, h2, -⟩ := C102_follow bigEnv_ok sampleEngine _ _ hts hb file hF n
  rw [hf] at h1 ⊢
  exact ⟨f.tags[0], by rw [List.getElem?_eq_getElem], h2 0 (by simp) h1⟩

end
end Verif.Props
