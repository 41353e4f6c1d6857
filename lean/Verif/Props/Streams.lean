import Verif.Proof.Views
import Verif.Spec.Memory
/-!
# Properties C18–C24: limited readers and the `std::io` adapters
-/
namespace Verif.Props
open Spec

/-! ### `LimitedReader` -/

/-- A call on a limited reader. -/
inductive LimOp where
  | read
  | readAll (n : Nat)
  | skip (n : Nat)
  | skipU64 (n : UInt64)
  | gotoEnd

/-- One call on a limited reader; only the success is recorded. -/
def limStep {σ : Type} [Reader σ] (l : Limited σ) : LimOp → Bool × Limited σ
  | .read => let r := Reader.read l; (r.1.isOk, r.2)
  | .readAll n => let r := Reader.readAll n l; (r.1.isOk, r.2)
  | .skip n => let r := Reader.skip n l; (r.1.isOk, r.2)
  | .skipU64 n => let r := Reader.skipU64 n l; (r.1.isOk, r.2)
  | .gotoEnd => let r := Limited.gotoEnd l; (r.1.isOk, r.2)

theorem tick_apply {σ α : Type} (n : Nat) (x : Act IoErr σ α) (c : Counting σ) {r : Res IoErr α} {s' : σ}
    (h : x c.source = (r, s')) : Counting.tick n x c = (r, ⟨s', if r.isOk then c.count + n else c.count⟩) := by
  simp [Counting.tick, h]

theorem lim_readAll_inv {σ : Type} [Reader σ] (n : Nat) (l : Limited (Counting σ)) :
    (Limited.readAll n l).2.source.count + (Limited.readAll n l).2.available = l.source.count + l.available := by
  unfold Limited.readAll Limited.canRead
  by_cases h : n > l.available
  · rw [if_pos h]
  · rw [if_neg h]
    rcases hx : Reader.readAll n l.source.source with ⟨x, s'⟩
    have ht := tick_apply n (Reader.readAll n) l.source hx
    simp only [show Reader.readAll n l.source = _ from ht]
    cases x <;> simp [Res.isOk] <;> omega

theorem lim_skip_inv {σ : Type} [Reader σ] (n : Nat) (l : Limited (Counting σ)) :
    (defaultSkip Limited.readAll n l).2.source.count + (defaultSkip Limited.readAll n l).2.available
      = l.source.count + l.available := by
  induction n using Nat.strongRecOn generalizing l with
  | ind n ih =>
    rw [defaultSkip]
    by_cases h0 : n = 0
    · rw [dif_pos h0]; rfl
    · rw [dif_neg h0]
      have hr := lim_readAll_inv (min n 512) l
      rcases hx : Limited.readAll (min n 512) l with ⟨x, l'⟩
      rw [hx] at hr
      cases x with
      | ok a => rw [Act.bind_ok hx, ih _ (by omega)]; exact hr
      | err e => rw [Act.bind_err hx]; exact hr
      | panic => rw [Act.bind_panic hx]; exact hr
      | diverge => rw [Act.bind_diverge hx]; exact hr

theorem lim_skipU64_inv {σ : Type} [Reader σ] (um n : Nat) (l : Limited (Counting σ)) :
    (defaultSkipU64Loop um (defaultSkip Limited.readAll) n l).2.source.count +
      (defaultSkipU64Loop um (defaultSkip Limited.readAll) n l).2.available = l.source.count + l.available := by
  induction n using Nat.strongRecOn generalizing l with
  | ind n ih =>
    rw [defaultSkipU64Loop]
    by_cases h0 : n = 0
    · rw [dif_pos h0]; rfl
    · rw [dif_neg h0]
      have hr := lim_skip_inv (min n (max um 1)) l
      rcases hx : defaultSkip Limited.readAll (min n (max um 1)) l with ⟨x, l'⟩
      rw [hx] at hr
      cases x with
      | ok a => rw [Act.bind_ok hx, ih _ (by omega)]; exact hr
      | err e => rw [Act.bind_err hx]; exact hr
      | panic => rw [Act.bind_panic hx]; exact hr
      | diverge => rw [Act.bind_diverge hx]; exact hr

/-- **C18** Whatever the source does (no law is assumed of it) and whatever is called in whatever order, the bytes the
source has delivered through the limited reader plus `available()` is the initial limit, so never more than the limit
is delivered. -/
theorem C18_limit_is_respected {σ : Type} [Reader σ] (s : σ) (limit : Nat) (ops : List LimOp) :
    let l := (runHist limStep (⟨⟨s, 0⟩, limit⟩ : Limited (Counting σ)) ops).2
    l.source.count + l.available = limit ∧ l.source.count ≤ limit := by
  suffices H : ∀ l0 : Limited (Counting σ),
      (runHist limStep l0 ops).2.source.count + (runHist limStep l0 ops).2.available = l0.source.count + l0.available by
    have := H ⟨⟨s, 0⟩, limit⟩
    simp only [Nat.zero_add] at this
    exact ⟨this, by omega⟩
  induction ops with
  | nil => intro l0; rfl
  | cons op ops ih =>
    intro l0
    simp only [runHist, ih]
    cases op with
    | read =>
      simp only [limStep, Reader.read]
      unfold Limited.read Limited.canRead
      by_cases h : 1 > l0.available
      · rw [if_pos h]
      · rw [if_neg h]
        rcases hx : Reader.read l0.source.source with ⟨x, s'⟩
        have ht := tick_apply 1 Reader.read l0.source hx
        simp only [show Reader.read l0.source = _ from ht]
        cases x <;> simp [Res.isOk] <;> omega
    | readAll n => exact lim_readAll_inv n l0
    | skip n => exact lim_skip_inv n l0
    | skipU64 n => exact lim_skipU64_inv usizeMax64 n.toNat l0
    | gotoEnd =>
      simp only [limStep]
      unfold Limited.gotoEnd
      by_cases h : l0.available > 0
      · rw [if_pos h]
        rcases hx : Reader.skip l0.available l0.source.source with ⟨x, s'⟩
        have ht := tick_apply l0.available (Reader.skip l0.available) l0.source hx
        simp only [show Reader.skip l0.available l0.source = _ from ht]
        cases x <;> simp [Res.isOk]
      · rw [if_neg h]

/-- Limit 4 over an array of 9: the second read is refused and 4 bytes are delivered in all. -/
example : (runHist limStep (⟨⟨ByteArrayReader.new [1, 2, 3, 4, 5, 6, 7, 8, 9], 0⟩, 4⟩ : Limited (Counting ByteArrayReader))
    [.readAll 3, .readAll 2, .skip 1, .read]).1 = [true, false, true, false] := by decide +kernel

/-- **C18** A request larger than `available()` is refused with `UnableToReadData` and the source is not touched. -/
theorem C18_too_large_refused {σ : Type} [Reader σ] (l : Limited σ) (n : Nat) (h : l.available < n) :
    (n = 1 → Reader.read l = (.err .unableToReadData, l)) ∧ Reader.readAll n l = (.err .unableToReadData, l) := by
  constructor
  · rintro rfl
    show Limited.read l = _
    unfold Limited.read Limited.canRead
    rw [if_pos h]
  · show Limited.readAll n l = _
    unfold Limited.readAll Limited.canRead
    rw [if_pos h]

/-- **C19** Whatever the source, a request larger than `available()` is refused with `UnableToReadData` and the
source is not touched; a `skip` likewise while fewer than 512 bytes are available or asked for. -/
theorem C19_refusal_consumes_nothing {σ : Type} [Reader σ] (l : Limited σ) (n : Nat) (h : l.available < n) :
    (n = 1 → Reader.read l = (.err .unableToReadData, l)) ∧
    Reader.readAll n l = (.err .unableToReadData, l) ∧
    (n ≤ 512 ∨ l.available < 512 → Reader.skip n l = (.err .unableToReadData, l)) := by
  have hra : ∀ k, l.available < k → Limited.readAll k l = (.err .unableToReadData, l) := by
    intro k hk
    unfold Limited.readAll Limited.canRead
    rw [if_pos hk]
  refine ⟨?_, hra n h, fun hs => ?_⟩
  · rintro rfl
    show Limited.read l = _
    unfold Limited.read Limited.canRead
    rw [if_pos h]
  · show defaultSkip Limited.readAll n l = _
    rw [defaultSkip, dif_neg (by omega), Act.bind_err (hra (min n 512) (by omega))]

/-- **C19** (the documentation is wrong for larger skips) Over any well-behaved source that has the window's bytes, a
refused `skip` fails with `UnableToReadData` but consumes `512 * (available / 512)` bytes first: nothing exactly when
fewer than 512 bytes are available. -/
theorem C19_refused_skip_consumes {σ : Type} [Reader σ] (V : View σ) (l : Limited σ) (bs : Bytes) (n : Nat)
    (hR : V.R l.source bs) (hw : l.available ≤ bs.length) (h : l.available < n) :
    ∃ l', Reader.skip n l = (.err .unableToReadData, l') ∧ l'.available = l.available % 512 ∧
      V.R l'.source (bs.drop (512 * (l.available / 512))) := by
  show ∃ l', defaultSkip Limited.readAll n l = _ ∧ _
  induction n using Nat.strongRecOn generalizing l bs with
  | ind n ih =>
    rw [defaultSkip, dif_neg (by omega)]
    by_cases hc : min n 512 ≤ l.available
    · have h512 : min n 512 = 512 := by omega
      obtain ⟨s', hr, hR'⟩ := V.readAll_ok (n := 512) hR (by omega)
      have hstep : Limited.readAll (min n 512) l = (.ok (bs.take 512), ⟨s', l.available - 512⟩) := by
        unfold Limited.readAll Limited.canRead
        rw [h512, if_neg (by omega)]
        simp only [hr, Res.isOk, if_true]
      rw [Act.bind_ok hstep, h512]
      obtain ⟨l', h1, h2, h3⟩ := ih (n - 512) (by omega) ⟨s', l.available - 512⟩ (bs.drop 512) hR'
        (by simp only [List.length_drop]; omega) (by simp only; omega)
      refine ⟨l', h1, by simp only at h2; omega, ?_⟩
      rw [List.drop_drop] at h3
      rwa [show 512 + 512 * ((l.available - 512) / 512) = 512 * (l.available / 512) by omega] at h3
    · have hr := (C19_refusal_consumes_nothing l (min n 512) (by omega)).2.1
      refine ⟨l, Act.bind_err hr, by omega, ?_⟩
      rw [show l.available / 512 = 0 by omega]
      simpa using hR

/-- **C19** The documented claim, negated with a witness: a refused `skip` of 700 bytes with 600 available consumes
512 bytes of the source. -/
theorem C19_documented_claim_false :
    ¬ ∀ (l : Limited ByteArrayReader) (n : Nat), (Reader.skip n l).1.isOk = false → (Reader.skip n l).2 = l := by
  intro h
  have := h ⟨ByteArrayReader.new (List.replicate 1000 0), 600⟩ 700 (by decide +kernel)
  revert this
  decide +kernel

/-- **C20** Over any reader with correct skips: `goto_end` succeeds exactly when the source still has the available
bytes, and then moves to the end of the window. -/
theorem C20_goto_end {σ : Type} [Reader σ] (V : SkipView σ) (l : Limited σ) (bs : Bytes) (hR : V.R l.source bs) :
    (l.available ≤ bs.length → ∃ l', Limited.gotoEnd l = (.ok (), l') ∧ l'.available = 0 ∧
      V.R l'.source (bs.drop l.available)) ∧
    (bs.length < l.available → ∃ e l', Limited.gotoEnd l = (.err e, l') ∧ l'.available = l.available) := by
  unfold Limited.gotoEnd
  constructor
  · intro h
    by_cases h0 : l.available > 0
    · obtain ⟨s', hs, hR'⟩ := V.skip_ok hR h
      rw [if_pos h0, hs]
      exact ⟨_, rfl, rfl, hR'⟩
    · rw [if_neg h0]
      exact ⟨l, rfl, by omega, by rw [show l.available = 0 by omega]; simpa using hR⟩
  · intro h
    obtain ⟨e, s', hs⟩ := V.skip_short (n := l.available) hR h
    rw [if_pos (by omega), hs]
    exact ⟨e, _, rfl, rfl⟩

/-- **C20** For every source without any assumption: after a failure `available()` is unchanged, after a success it
is 0. -/
theorem C20_goto_end_available {σ : Type} [Reader σ] (l : Limited σ) :
    (Limited.gotoEnd l).2.available = if (Limited.gotoEnd l).1.isOk then 0 else l.available := by
  unfold Limited.gotoEnd
  by_cases h0 : l.available > 0
  · rw [if_pos h0]
  · rw [if_neg h0]; simp [Res.isOk]; omega

example : Limited.gotoEnd (⟨ByteArrayReader.new [1, 2, 3, 4], 3⟩ : Limited ByteArrayReader) =
    (.ok (), ⟨⟨[1, 2, 3, 4], 3⟩, 0⟩) := by decide +kernel

/-! ### `ReadReader` -/

theorem defaultSkipU64_eq {σ : Type} (skip : Nat → Act IoErr σ Unit) (h0 : ∀ s, skip 0 s = (.ok (), s)) (n : UInt64)
    (s : σ) : defaultSkipU64 skip n s = skip n.toNat s := by
  have hn := n.toNat_lt
  unfold defaultSkipU64
  rw [defaultSkipU64Loop]
  by_cases hz : n.toNat = 0
  · rw [dif_pos hz, hz, h0]; rfl
  · rw [dif_neg hz]
    have : min n.toNat (max usizeMax64 1) = n.toNat := by unfold usizeMax64; omega
    rw [this, Nat.sub_self]
    rcases hs : skip n.toNat s with ⟨r', s'⟩
    cases r' with
    | ok a => rw [Act.bind_ok hs, defaultSkipU64Loop]; rfl
    | err e => rw [Act.bind_err hs]
    | panic => rw [Act.bind_panic hs]
    | diverge => rw [Act.bind_diverge hs]

theorem readReader_skip (r : ReadReader) (hb : Benign r.sched) (n : Nat) :
    ∃ sc, Benign sc ∧ defaultSkip ReadReader.readAll n r =
      if n ≤ r.data.length then (.ok (), ⟨r.data.drop n, sc⟩) else (.err (.ioError .unexpectedEof), ⟨[], sc⟩) := by
  induction n using Nat.strongRecOn generalizing r with
  | ind n ih =>
    rw [defaultSkip]
    by_cases h0 : n = 0
    · subst h0; exact ⟨r.sched, hb, by simp⟩
    · rw [dif_neg h0]
      obtain ⟨h1, h2⟩ := ReadReader.readAll_benign hb (min n 512)
      by_cases hc : min n 512 ≤ r.data.length
      · obtain ⟨sc, hr, hbs⟩ := h1 hc
        obtain ⟨sc', hb', hs⟩ := ih (n - min n 512) (by omega) ⟨r.data.drop (min n 512), sc⟩ hbs
        refine ⟨sc', hb', ?_⟩
        rw [Act.bind_ok hr, hs]
        simp only [List.length_drop, List.drop_drop]
        rw [show min n 512 + (n - min n 512) = n by omega]
        by_cases hn : n ≤ r.data.length
        · rw [if_pos hn, if_pos (by omega)]
        · rw [if_neg hn, if_neg (by omega)]
      · obtain ⟨sc, hr, hbs⟩ := h2 (by omega)
        exact ⟨sc, hbs, by rw [Act.bind_err hr, if_neg (by omega)]⟩

theorem readReader_step (r : ReadReader) (hb : Benign r.sched) (op : ReadOp) :
    ∃ sc, Benign sc ∧ readStep (fun _ s => s) r op = ((streamStep r.data op).1, ⟨(streamStep r.data op).2, sc⟩) := by
  cases op with
  | read =>
    obtain ⟨h1, h2⟩ := readExact_benign hb r.data 1
    by_cases h : 1 ≤ r.data.length
    · obtain ⟨sc, hr, hbs⟩ := h1 h
      refine ⟨sc, hbs, ?_⟩
      have hd : ∃ b t, r.data = b :: t := by
        cases hr : r.data with
        | nil => rw [hr] at h; simp at h
        | cons b t => exact ⟨b, t, rfl⟩
      obtain ⟨b, t, hd⟩ := hd
      rw [hd] at hr
      simp [readStep, Reader.read, ReadReader.read, streamStep, hd, hr, Res.map]
    · obtain ⟨sc, hr, hbs⟩ := h2 (by omega)
      refine ⟨sc, hbs, ?_⟩
      simp only [readStep, Reader.read, ReadReader.read, streamStep, hr, h, if_false, Res.map]
  | readAll n =>
    obtain ⟨h1, h2⟩ := ReadReader.readAll_benign hb n
    by_cases h : n ≤ r.data.length
    · obtain ⟨sc, hr, hbs⟩ := h1 h
      exact ⟨sc, hbs, by simp only [readStep, Reader.readAll, streamStep, hr, h, if_true]⟩
    · obtain ⟨sc, hr, hbs⟩ := h2 (by omega)
      exact ⟨sc, hbs, by simp only [readStep, Reader.readAll, streamStep, hr, h, if_false]⟩
  | skip n =>
    obtain ⟨sc, hbs, hs⟩ := readReader_skip r hb n
    refine ⟨sc, hbs, ?_⟩
    simp only [readStep, Reader.skip, streamStep, hs]
    split <;> rfl
  | skipU64 n =>
    obtain ⟨sc, hbs, hs⟩ := readReader_skip r hb n.toNat
    refine ⟨sc, hbs, ?_⟩
    have he : (Reader.skipU64 n : Act IoErr ReadReader Unit) r = defaultSkip ReadReader.readAll n.toNat r :=
      defaultSkipU64_eq _ (fun s => by rw [defaultSkip]; rfl) n r
    simp only [readStep, streamStep, he, hs]
    split <;> rfl
  | setOffset n => exact ⟨r.sched, hb, rfl⟩

/-- **C21** Over a `std::io::Read` that delivers `data` in arbitrary pieces with arbitrary interruptions, every history
of calls gives the same answers and leaves the same remaining data as a plain stream: the schedule does not matter. -/
theorem C21_schedule_independent (data : Bytes) (sched : List ReadEv) (hb : Benign sched) (ops : List ReadOp) :
    (readRun (fun _ s => s) (⟨data, sched⟩ : ReadReader) ops).1 = (runHist streamStep data ops).1 ∧
    (readRun (fun _ s => s) (⟨data, sched⟩ : ReadReader) ops).2.data = (runHist streamStep data ops).2 := by
  induction ops generalizing data sched with
  | nil => exact ⟨rfl, rfl⟩
  | cons op ops ih =>
    obtain ⟨sc, hbs, hs⟩ := readReader_step ⟨data, sched⟩ hb op
    simp only [readRun, runHist, hs]
    obtain ⟨i1, i2⟩ := ih (streamStep data op).2 sc hbs
    exact ⟨by rw [i1], i2⟩

/-- **C21** Such a stream gives the answers of a contiguous array as long as these are successes, and fails at the same
call as the array. -/
theorem C21_same_as_array (a : Bytes) (ops : List ReadOp) (hno : ∀ n, ReadOp.setOffset n ∉ ops)
    (hok : ∀ r ∈ (cursorRun a 0 ops).1, r.isOk) :
    (runHist streamStep a ops).1 = (cursorRun a 0 ops).1 ∧
    (runHist streamStep a ops).2 = a.drop (cursorRun a 0 ops).2 ∧
    ∀ op, (∀ n, op ≠ .setOffset n) → (streamStep (runHist streamStep a ops).2 op).1.isOk =
      (cursorStep a (cursorRun a 0 ops).2 op).1.isOk := by
  have take_eq : ∀ pos n, pos ≤ a.length →
      ((cursorTake a pos n).1.isOk = decide (n ≤ (a.drop pos).length)) ∧
      ((cursorTake a pos n).1.isOk → (cursorTake a pos n).1 = .ok ((a.drop pos).take n) ∧
        (cursorTake a pos n).2 = pos + n ∧ pos + n ≤ a.length) := by
    intro pos n hp
    unfold cursorTake
    split
    · rename_i h
      exact ⟨by simp [Res.isOk]; omega, fun _ => ⟨rfl, rfl, h⟩⟩
    · rename_i h
      exact ⟨by simp [Res.isOk]; omega, fun h => by simp [Res.isOk] at h⟩
  have hmap : ∀ (r : Res IoErr Bytes), (r.map fun _ => ([] : Bytes)).isOk = r.isOk := by intro r; cases r <;> rfl
  have sim : ∀ pos op, pos ≤ a.length → (∀ n, op ≠ .setOffset n) →
      (streamStep (a.drop pos) op).1.isOk = (cursorStep a pos op).1.isOk ∧
      ((cursorStep a pos op).1.isOk → (streamStep (a.drop pos) op).1 = (cursorStep a pos op).1 ∧
        (streamStep (a.drop pos) op).2 = a.drop (cursorStep a pos op).2 ∧ (cursorStep a pos op).2 ≤ a.length) := by
    intro pos op hp hop
    have main : ∀ n, (if n ≤ (a.drop pos).length then
        ((.ok ((a.drop pos).take n), (a.drop pos).drop n) : Res IoErr Bytes × Bytes)
        else (.err (.ioError .unexpectedEof), [])).1.isOk = (cursorTake a pos n).1.isOk := by
      intro n
      rw [(take_eq pos n hp).1]
      split
      · rename_i h; rw [decide_eq_true h]; rfl
      · rename_i h; rw [decide_eq_false h]; rfl
    cases op with
    | setOffset n => exact absurd rfl (hop n)
    | read =>
      refine ⟨main 1, fun h => ?_⟩
      have hk := (take_eq pos 1 hp).2 h
      have hle : 1 ≤ (a.drop pos).length := by simp; omega
      simp only [streamStep, cursorStep, hle, if_true, hk.1, hk.2.1, List.drop_drop]
      exact ⟨trivial, trivial, hk.2.2⟩
    | readAll n =>
      refine ⟨main n, fun h => ?_⟩
      have hk := (take_eq pos n hp).2 h
      have hle : n ≤ (a.drop pos).length := by simp; omega
      simp only [streamStep, cursorStep, hle, if_true, hk.1, hk.2.1, List.drop_drop]
      exact ⟨trivial, trivial, hk.2.2⟩
    | skip n =>
      have hm := main n
      constructor
      · simp only [streamStep, cursorStep, hmap, ← hm]
        split <;> rfl
      · intro h
        simp only [cursorStep, hmap] at h
        have hk := (take_eq pos n hp).2 h
        have hle : n ≤ (a.drop pos).length := by simp; omega
        simp only [streamStep, cursorStep, hle, if_true, hk.1, hk.2.1, List.drop_drop, Res.map]
        exact ⟨trivial, trivial, hk.2.2⟩
    | skipU64 n =>
      have hm := main n.toNat
      constructor
      · simp only [streamStep, cursorStep, hmap, ← hm]
        split <;> rfl
      · intro h
        simp only [cursorStep, hmap] at h
        have hk := (take_eq pos n.toNat hp).2 h
        have hle : n.toNat ≤ (a.drop pos).length := by simp; omega
        simp only [streamStep, cursorStep, hle, if_true, hk.1, hk.2.1, List.drop_drop, Res.map]
        exact ⟨trivial, trivial, hk.2.2⟩
  suffices H : ∀ pos, pos ≤ a.length → (∀ r ∈ (cursorRun a pos ops).1, r.isOk) →
      (runHist streamStep (a.drop pos) ops).1 = (cursorRun a pos ops).1 ∧
      (runHist streamStep (a.drop pos) ops).2 = a.drop (cursorRun a pos ops).2 ∧ (cursorRun a pos ops).2 ≤ a.length by
    obtain ⟨h1, h2, h3⟩ := H 0 (by omega) hok
    rw [List.drop_zero] at h1 h2
    refine ⟨h1, h2, fun op hop => ?_⟩
    rw [h2]
    exact (sim _ op h3 hop).1
  clear hok
  induction ops with
  | nil => intro pos hp _; exact ⟨rfl, rfl, hp⟩
  | cons op ops ih =>
    intro pos hp hok
    have hop : ∀ n, op ≠ .setOffset n := fun n h => hno n (by rw [h]; exact List.mem_cons_self ..)
    obtain ⟨-, s2⟩ := sim pos op hp hop
    have hk := s2 (hok _ (by simp [cursorRun]))
    obtain ⟨i1, i2, i3⟩ := ih (fun n hn => hno n (List.mem_cons_of_mem _ hn)) (cursorStep a pos op).2 hk.2.2
      (fun r hr => hok r (by simp only [cursorRun]; exact List.mem_cons_of_mem _ hr))
    simp only [runHist, cursorRun, hk.1, hk.2.1, i1, i2]
    exact ⟨trivial, trivial, i3⟩

example : Benign [.chunk 1, .error .interrupted, .chunk 2] := by
  intro ev h
  simp at h
  rcases h with rfl | rfl | rfl
  · exact .inl ⟨1, rfl, by omega⟩
  · exact .inr rfl
  · exact .inl ⟨2, rfl, by omega⟩
example : (readRun (fun _ s => s) (⟨[1, 2, 3, 4], [.chunk 1, .error .interrupted, .chunk 2]⟩ : ReadReader)
    [.readAll 3, .readAll 2]).1 = [.ok [1, 2, 3], .err (.ioError .unexpectedEof)] := by decide +kernel

/-- **C21** (any schedule, also with failures and early ends) If `read_all` succeeds, it returned exactly the next
bytes of the source and consumed exactly these. -/
theorem C21_success_is_exact (r r' : ReadReader) (n : Nat) (bs : Bytes) (h : Reader.readAll n r = (.ok bs, r')) :
    bs.length = n ∧ r.data = bs ++ r'.data := by
  refine ⟨Reader.readAll_len n r bs r' h, ?_⟩
  have key : ∀ (sched : List ReadEv) (data : Bytes) (n : Nat) (bs d : Bytes) (sc : List ReadEv),
      readExact data sched n = (.ok bs, d, sc) → data = bs ++ d := by
    intro sched
    induction sched with
    | nil =>
      intro data n bs d sc h
      cases n with
      | zero => simp [readExact] at h; obtain ⟨rfl, rfl, -⟩ := h; rfl
      | succ n =>
        simp only [readExact] at h
        split at h
        · simp at h; obtain ⟨rfl, rfl, -⟩ := h; simp
        · simp at h
    | cons ev sched ih =>
      intro data n bs d sc h
      cases n with
      | zero => simp [readExact] at h; obtain ⟨rfl, rfl, -⟩ := h; rfl
      | succ n =>
        cases ev with
        | error e =>
          simp only [readExact] at h
          split at h
          · exact ih _ _ _ _ _ h
          · simp at h
        | chunk k =>
          simp only [readExact] at h
          split at h
          · simp at h
          · rcases hr : readExact (data.drop (data.take (min k (n + 1))).length) sched
              (n + 1 - (data.take (min k (n + 1))).length) with ⟨x, d', s'⟩
            rw [hr] at h
            cases x with
            | ok bs' =>
              simp only [Prod.mk.injEq, Res.ok.injEq] at h
              obtain ⟨rfl, rfl, -⟩ := h
              have := ih _ _ _ _ _ hr
              rw [List.append_assoc, ← this, List.length_take]
              by_cases hm : min k (n + 1) ≤ data.length
              · rw [Nat.min_eq_left hm, List.take_append_drop]
              · have e : min (min k (n + 1)) data.length = data.length := by omega
                rw [e, List.take_of_length_le (by omega)]; simp
            | err e => simp at h
            | panic => simp at h
            | diverge => simp at h
  simp only [Reader.readAll, ReadReader.readAll] at h
  rcases hr : readExact r.data r.sched n with ⟨x, d, sc⟩
  rw [hr] at h
  cases x with
  | ok bs' =>
    simp [Res.mapErr] at h
    obtain ⟨rfl, rfl⟩ := h
    exact key _ _ _ _ _ _ hr
  | err e => simp [Res.mapErr] at h
  | panic => simp [Res.mapErr] at h
  | diverge => simp [Res.mapErr] at h

/-! ### `WriteWriter` -/

/-- **C22** One `write_all` over any destination: what the destination accepted is a prefix of the buffer; the call
returns `Ok` exactly when the destination accepted the whole buffer without an error, `UnableToWriteData` exactly when
it accepted only a proper prefix, and the destination's error otherwise. -/
theorem C22_write_all (w : WriteWriter) (buf : Bytes) :
    ∃ acc w', acc <+: buf ∧ w'.out = w.out ++ acc ∧
      ((Writer.writeAll buf w = (.ok (), w') ∧ acc = buf ∧ ∀ e, w.sched.head? ≠ some (.error e)) ∨
       (Writer.writeAll buf w = (.err .unableToWriteData, w') ∧ acc ≠ buf ∧ ∀ e, w.sched.head? ≠ some (.error e)) ∨
       (∃ e, Writer.writeAll buf w = (.err (.ioError e), w') ∧ acc = [] ∧ w.sched.head? = some (.error e))) := by
  rcases w with ⟨out, sched⟩
  cases sched with
  | nil =>
    exact ⟨buf, ⟨out ++ buf, []⟩, List.prefix_refl _, rfl,
      .inl ⟨by simp [Writer.writeAll, WriteWriter.writeAll, WriteWriter.stdWrite], rfl, by simp⟩⟩
  | cons ev sched =>
    cases ev with
    | error e =>
      exact ⟨[], ⟨out, sched⟩, List.nil_prefix, by simp, .inr (.inr ⟨e, rfl, rfl, rfl⟩)⟩
    | accept k =>
      refine ⟨buf.take k, ⟨out ++ buf.take k, sched⟩, List.take_prefix _ _, rfl, ?_⟩
      by_cases hk : buf.length ≤ k
      · exact .inl ⟨by simp [Writer.writeAll, WriteWriter.writeAll, WriteWriter.stdWrite, Nat.min_eq_right hk],
          List.take_of_length_le hk, by simp⟩
      · refine .inr (.inl ⟨?_, ?_, by simp⟩)
        · have : min k buf.length ≠ buf.length := by omega
          simp [Writer.writeAll, WriteWriter.writeAll, WriteWriter.stdWrite, this]
        · intro h
          have := congrArg List.length h
          simp at this
          omega

/-- **C22** `write` is `write_all` of one byte; and over any schedule and any history of buffers, if every call
returned `Ok` then the destination received exactly the concatenation of the buffers. -/
theorem C22_history (w : WriteWriter) :
    (∀ b, Writer.write b w = Writer.writeAll [b] w) ∧
    ∀ (bufs : List Bytes),
      let r := runHist (fun w buf => (Writer.writeAll buf w : Res IoErr Unit × WriteWriter)) w bufs
      (∀ x ∈ r.1, x.isOk) → r.2.out = w.out ++ bufs.flatten := by
  refine ⟨fun b => rfl, ?_⟩
  intro bufs
  induction bufs generalizing w with
  | nil => intro r _; simp [r, runHist]
  | cons b bufs ih =>
    intro r hr
    obtain ⟨acc, w', -, hout, hc⟩ := C22_write_all w b
    have h1 := hr (Writer.writeAll b w).1 (by simp [r, runHist])
    rcases hc with ⟨hw, rfl, -⟩ | ⟨hw, -⟩ | ⟨e, hw, -⟩
    · have := ih w' (fun x hx => hr x (by simp only [r, runHist, hw]; exact List.mem_cons_of_mem _ hx))
      simp only [r, runHist, hw]
      rw [this, hout]
      simp
    · rw [hw] at h1; simp [Res.isOk] at h1
    · rw [hw] at h1; simp [Res.isOk] at h1

/-- A short write is an error although its prefix has been written. -/
example : Writer.writeAll [1, 2, 3] (⟨[], [.accept 2]⟩ : WriteWriter) = (.err .unableToWriteData, ⟨[1, 2], []⟩) := by
  decide +kernel

/-! ### `Read + Seek` -/

section
variable {m : ArithMode}

/-- The position of a stream of sane length. -/
def Sane (s : SeekStream m) : Prop := s.seeks = [] ∧ s.content.length < 2 ^ 64

theorem seekTo_sane {s : SeekStream m} (h : s.seeks = []) (p : UInt64) :
    SeekStream.seekTo p s = (.ok p, { s with pos := p }) := by
  unfold SeekStream.seekTo
  rw [h]

theorem skipU64_unfold {s : SeekStream m} (h : s.seeks = []) {n : UInt64} (hn : n ≠ 0) :
    SeekStream.skipU64 n s =
      if s.pos = UInt64.ofNat s.content.length then
        (.err .endOfData, { s with pos := UInt64.ofNat s.content.length })
      else match (addU64 m s.pos n : Res IoErr UInt64) with
        | .ok p => if p ≤ UInt64.ofNat s.content.length then (.ok (), { s with pos := p })
          else (.err .unableToReadData, { s with pos := UInt64.ofNat s.content.length })
        | .err e => (.err e, { s with pos := UInt64.ofNat s.content.length })
        | .panic => (.panic, { s with pos := UInt64.ofNat s.content.length })
        | .diverge => (.diverge, { s with pos := UInt64.ofNat s.content.length }) := by
  rw [SeekStream.skipU64, if_neg hn]
  have h1 : SeekStream.seekCur s = (.ok s.pos, s) := seekTo_sane h s.pos
  rw [Act.bind_ok h1]
  have h2 : SeekStream.seekEnd s =
      (.ok (UInt64.ofNat s.content.length), { s with pos := UInt64.ofNat s.content.length }) := seekTo_sane h _
  rw [Act.bind_ok h2]
  by_cases hp : s.pos = UInt64.ofNat s.content.length
  · rw [if_pos hp, if_pos hp]; rfl
  · rw [if_neg hp, if_neg hp]
    cases ha : (addU64 m s.pos n : Res IoErr UInt64) with
    | ok p =>
      show (if p ≤ UInt64.ofNat s.content.length then _ else _ : Act IoErr (SeekStream m) Unit)
        { s with pos := UInt64.ofNat s.content.length } = _
      simp only
      split
      · rw [Act.bind_ok (show SeekStream.seekStart p _ = _ from
          seekTo_sane (m := m) (s := { s with pos := UInt64.ofNat s.content.length }) h p)]
        rfl
      · rfl
    | err e => rfl
    | panic => rfl
    | diverge => rfl

/-- **C23** Skipping over `Read + Seek` from any position, within or past the end, as long as position plus count does
not overflow: success exactly when that many bytes remain (and then the position advances by the count), or the count
is 0; otherwise `EndOfData` at the end or `UnableToReadData`, and the position is left at the end of the data. -/
theorem C23_skip (s : SeekStream m) (hs : Sane s) (n : UInt64) (ho : s.pos.toNat + n.toNat < 2 ^ 64) :
    (n.toNat = 0 ∨ s.pos.toNat + n.toNat ≤ s.content.length →
      Reader.skipU64 n s = (.ok (), { s with pos := s.pos + n }) ∧ (s.pos + n).toNat = s.pos.toNat + n.toNat) ∧
    (0 < n.toNat → s.content.length < s.pos.toNat + n.toNat →
      Reader.skipU64 n s =
        (.err (if s.pos.toNat = s.content.length then .endOfData else .unableToReadData),
          { s with pos := UInt64.ofNat s.content.length })) := by
  obtain ⟨hk, hl⟩ := hs
  have hadd : (s.pos + n).toNat = s.pos.toNat + n.toNat := by
    rw [UInt64.toNat_add, Nat.mod_eq_of_lt ho]
  have hend : (UInt64.ofNat s.content.length).toNat = s.content.length := by
    rw [UInt64.toNat_ofNat', Nat.mod_eq_of_lt hl]
  have hu : (addU64 m s.pos n : Res IoErr UInt64) = .ok (s.pos + n) := by
    unfold addU64; rw [if_pos ho]
  show (_ → SeekStream.skipU64 n s = _ ∧ _) ∧ (_ → _ → SeekStream.skipU64 n s = _)
  constructor
  · intro h
    refine ⟨?_, hadd⟩
    by_cases h0 : n = 0
    · subst h0
      rcases s with ⟨c, p, a, b, d⟩
      simp [SeekStream.skipU64]
    · have hn0 : n.toNat ≠ 0 := fun h => h0 (UInt64.toNat_inj.mp (by simpa using h))
      rw [skipU64_unfold hk h0, if_neg, hu]
      · simp only
        rw [if_pos (by rw [UInt64.le_iff_toNat_le, hadd, hend]; omega)]
      · intro he
        have := congrArg UInt64.toNat he
        rw [hend] at this
        omega
  · intro h0 h
    have hn0 : n ≠ 0 := by intro h; subst h; simp at h0
    rw [skipU64_unfold hk hn0]
    by_cases hp : s.pos = UInt64.ofNat s.content.length
    · have hp' := congrArg UInt64.toNat hp
      rw [hend] at hp'
      rw [if_pos hp, if_pos hp']
    · rw [if_neg hp, if_neg, hu]
      · simp only
        rw [if_neg (by rw [UInt64.le_iff_toNat_le, hadd, hend]; omega)]
      · intro he
        exact hp (UInt64.toNat_inj.mp (by rw [he, hend]))

/-- **C23** `skip` is `skip_u64` for every count that fits a `usize`. -/
theorem C23_skip_usize (s : SeekStream m) (n : Nat) : Reader.skip n s = Reader.skipU64 (UInt64.ofNat n) s := rfl

/-- **C23** (the limit of the claim) When position plus count overflows and the position is not the end: a debug build
panics, a release build reports success and moves strictly *backwards* if the wrapped position is within the data
(always the case for positions within the data). -/
theorem C23_overflow (c : Bytes) (p n : UInt64) (r : List ReadEv) (hl : c.length < 2 ^ 64) (hp : p.toNat < c.length)
    (ho : 2 ^ 64 ≤ p.toNat + n.toNat) :
    (Reader.skipU64 n (⟨c, p, r, [], []⟩ : SeekStream .checked)).1 = .panic ∧
    ∃ p', Reader.skipU64 n (⟨c, p, r, [], []⟩ : SeekStream .wrapping) = (.ok (), ⟨c, p', r, [], []⟩) ∧
      p'.toNat + 2 ^ 64 = p.toNat + n.toNat ∧ p'.toNat < p.toNat := by
  have hend : (UInt64.ofNat c.length).toNat = c.length := by
    rw [UInt64.toNat_ofNat', Nat.mod_eq_of_lt hl]
  have hne : p ≠ UInt64.ofNat c.length := by
    intro he
    have := congrArg UInt64.toNat he
    rw [hend] at this; omega
  have hnl := n.toNat_lt
  have hn0 : n ≠ 0 := by intro h; subst h; simp at ho; omega
  have hadd : (p + n).toNat + 2 ^ 64 = p.toNat + n.toNat := by
    rw [UInt64.toNat_add]; omega
  constructor
  · show (SeekStream.skipU64 n _).1 = _
    rw [skipU64_unfold rfl hn0]
    simp only
    rw [if_neg hne]
    unfold addU64
    rw [if_neg (by omega)]
  · refine ⟨p + n, ?_, hadd, by omega⟩
    show SeekStream.skipU64 n _ = _
    rw [skipU64_unfold rfl hn0]
    simp only
    rw [if_neg hne]
    unfold addU64
    rw [if_neg (by omega)]
    simp only
    rw [if_pos (by rw [UInt64.le_iff_toNat_le, hend]; omega)]

example : Reader.skipU64 (0xFFFFFFFFFFFFFFFE) (⟨[1, 2, 3, 4], 3, [], [], []⟩ : SeekStream .wrapping)
    = (.ok (), ⟨[1, 2, 3, 4], 1, [], [], []⟩) := by decide +kernel
example : Sane (⟨[1, 2, 3, 4], 3, [], [], []⟩ : SeekStream .wrapping) := ⟨rfl, by decide⟩

/-- **C24** `SizedSeek::len` returns the content length and leaves the position unchanged; `available` is the
difference, and underflows past the end. -/
theorem C24_sized_seek (s : SeekStream m) (hs : Sane s) :
    SeekStream.len s = (.ok (UInt64.ofNat s.content.length), s) ∧
    (UInt64.ofNat s.content.length).toNat = s.content.length ∧
    (∃ b, SeekStream.isEmpty s = (.ok b, s) ∧ (b = true ↔ s.content = [])) ∧
    SeekStream.offset s = (.ok s.pos, s) ∧
    (s.pos.toNat ≤ s.content.length → ∃ a, SeekStream.available s = (.ok a, s) ∧
      a.toNat = s.content.length - s.pos.toNat) ∧
    (s.content.length < s.pos.toNat →
      (m = .checked → SeekStream.available s = (.panic, s)) ∧
      (m = .wrapping → ∃ a, SeekStream.available s = (.ok a, s) ∧
        a.toNat + s.pos.toNat = 2 ^ 64 + s.content.length)) := by
  obtain ⟨hk, hl⟩ := hs
  have hend : (UInt64.ofNat s.content.length).toNat = s.content.length := by
    rw [UInt64.toNat_ofNat', Nat.mod_eq_of_lt hl]
  have hlen : SeekStream.len s = (.ok (UInt64.ofNat s.content.length), s) := by
    unfold SeekStream.len
    have h1 : SeekStream.seekCur s = (.ok s.pos, s) := seekTo_sane hk s.pos
    have h2 : SeekStream.seekEnd s =
      (.ok (UInt64.ofNat s.content.length), { s with pos := UInt64.ofNat s.content.length }) := seekTo_sane hk _
    rw [Act.bind_ok h1, Act.bind_ok h2,
      Act.bind_ok (show SeekStream.seekStart s.pos _ = _ from
        seekTo_sane (m := m) (s := { s with pos := UInt64.ofNat s.content.length }) hk s.pos)]
    rfl
  have hoff : SeekStream.offset s = (.ok s.pos, s) := seekTo_sane hk s.pos
  have hpl := s.pos.toNat_lt
  refine ⟨hlen, hend, ?_, hoff, ?_, ?_⟩
  · refine ⟨(UInt64.ofNat s.content.length == 0), ?_, ?_⟩
    · unfold SeekStream.isEmpty
      rw [Act.bind_ok hlen]; rfl
    · rw [beq_iff_eq, ← UInt64.toNat_inj, hend]
      simp
  · intro h
    have hav : SeekStream.available s = (.ok (UInt64.ofNat s.content.length - s.pos), s) := by
      unfold SeekStream.available
      rw [Act.bind_ok hlen, Act.bind_ok hoff, if_pos (by rw [UInt64.le_iff_toNat_le, hend]; exact h)]
      rfl
    rw [hav]
    refine ⟨_, rfl, ?_⟩
    rw [UInt64.toNat_sub_of_le _ _ (by rw [UInt64.le_iff_toNat_le, hend]; exact h), hend]
  · intro h
    have hnle : ¬ s.pos ≤ UInt64.ofNat s.content.length := by rw [UInt64.le_iff_toNat_le, hend]; omega
    unfold SeekStream.available
    rw [Act.bind_ok hlen, Act.bind_ok hoff, if_neg hnle]
    constructor
    · rintro rfl; rfl
    · rintro rfl
      refine ⟨_, rfl, ?_⟩
      rw [UInt64.toNat_sub, hend]
      omega

theorem putAt_eq (c : Bytes) (p : Nat) (bs : Bytes) : SeekStream.putAt c p bs = overwriteGap c p bs := by
  unfold SeekStream.putAt overwriteGap overwrite
  by_cases h : p ≤ c.length
  · have : p - c.length = 0 := by omega
    simp [this]
  · have e1 : c.take p = c := List.take_of_length_le (by omega)
    have e2 : c.drop (p + bs.length) = [] := List.drop_eq_nil_of_le (by omega)
    rw [e1, e2, List.take_of_length_le (by simp; omega), List.drop_eq_nil_of_le (by simp; omega)]

theorem overwriteGap_append (c : Bytes) (p : Nat) (a b : Bytes) :
    overwriteGap (overwriteGap c p a) (p + a.length) b = overwriteGap c p (a ++ b) := by
  have key : ∀ (v : Bytes), p ≤ v.length →
      overwrite (overwrite v p a ++ List.replicate (p + a.length - (overwrite v p a).length) 0) (p + a.length) b =
      overwrite v p (a ++ b) := by
    intro v hv
    have hl : (overwrite v p a).length = max v.length (p + a.length) := by unfold overwrite; simp; omega
    rw [hl, show p + a.length - max v.length (p + a.length) = 0 by omega]
    simp only [List.replicate_zero, List.append_nil]
    unfold overwrite
    have ht : (v.take p).length = p := by simp; omega
    have e1 : (v.take p ++ a ++ v.drop (p + a.length)).take (p + a.length) = v.take p ++ a := by
      rw [List.take_append_of_le_length (by simp; omega)]
      rw [List.take_of_length_le (by simp; omega)]
    have e2 : (v.take p ++ a ++ v.drop (p + a.length)).drop (p + a.length + b.length)
        = v.drop (p + (a ++ b).length) := by
      rw [List.drop_append, List.drop_eq_nil_of_le (by simp; omega), List.drop_drop]
      simp only [List.length_append, ht, List.nil_append]
      congr 1; omega
    rw [e1, e2]; simp
  show overwrite (overwriteGap c p a ++ _) _ b = _
  exact key (c ++ List.replicate (p - c.length) 0) (by simp; omega)

/-- **C24** The writer over `Write + Seek`, for every schedule of short, interrupted and failing writes: some prefix of
the buffer is written at the position (a gap past the end being filled with zeros), the position moves past it, and the
call succeeds only if the prefix is the whole buffer; it does succeed if no write fails or accepts nothing. -/
theorem C24_seek_writer (s : SeekStream m) (buf : Bytes) (hb : s.pos.toNat + buf.length < 2 ^ 64) :
    ∃ acc s', acc <+: buf ∧ s'.content = (if acc = [] then s.content else overwriteGap s.content s.pos.toNat acc) ∧
      s'.pos.toNat = s.pos.toNat + acc.length ∧
      ((Writer.writeAll buf s = (.ok (), s') ∧ acc = buf) ∨ (Writer.writeAll buf s = (.err .unableToWriteData, s') ∧
        ∃ ev ∈ s.writes, ev = .accept 0 ∨ ∃ e, ev = .error e ∧ e ≠ .interrupted)) := by
  have key : ∀ (sched : List WriteEv) (c : Bytes) (p : Nat) (buf : Bytes),
      ∃ acc sc, acc <+: buf ∧
        ((SeekStream.stdWriteAll c p sched buf =
            (.ok (), (if acc = [] then c else overwriteGap c p acc), p + acc.length, sc) ∧ acc = buf) ∨
         (∃ e, SeekStream.stdWriteAll c p sched buf =
            (.err e, (if acc = [] then c else overwriteGap c p acc), p + acc.length, sc) ∧
            ∃ ev ∈ sched, ev = .accept 0 ∨ ∃ e, ev = .error e ∧ e ≠ .interrupted)) := by
    intro sched
    induction sched with
    | nil =>
      intro c p buf
      cases buf with
      | nil => exact ⟨[], [], List.prefix_refl _, .inl ⟨by simp [SeekStream.stdWriteAll], rfl⟩⟩
      | cons b bs =>
        exact ⟨b :: bs, [], List.prefix_refl _, .inl ⟨by simp [SeekStream.stdWriteAll, putAt_eq], rfl⟩⟩
    | cons ev sched ih =>
      intro c p buf
      cases buf with
      | nil => exact ⟨[], ev :: sched, List.prefix_refl _, .inl ⟨by simp [SeekStream.stdWriteAll], rfl⟩⟩
      | cons b bs =>
        cases ev with
        | error e =>
          by_cases he : e = .interrupted
          · obtain ⟨acc, sc, hp, hc⟩ := ih c p (b :: bs)
            refine ⟨acc, sc, hp, ?_⟩
            simp only [SeekStream.stdWriteAll, he, if_true]
            rcases hc with hc | ⟨e', hc, ev, hev, hx⟩
            · exact .inl hc
            · exact .inr ⟨e', hc, ev, List.mem_cons_of_mem _ hev, hx⟩
          · refine ⟨[], sched, List.nil_prefix, .inr ⟨e, ?_, .error e, List.mem_cons_self .., .inr ⟨e, rfl, he⟩⟩⟩
            simp [SeekStream.stdWriteAll, he]
        | accept k =>
          cases k with
          | zero =>
            exact ⟨[], sched, List.nil_prefix, .inr ⟨.writeZero, by simp [SeekStream.stdWriteAll],
              .accept 0, List.mem_cons_self .., .inl rfl⟩⟩
          | succ k =>
            have hne : (b :: bs).take (k + 1) ≠ [] := by simp
            obtain ⟨acc, sc, hp, hc⟩ := ih (SeekStream.putAt c p ((b :: bs).take (k + 1)))
              (p + ((b :: bs).take (k + 1)).length) ((b :: bs).drop (k + 1))
            have hcomb : (if acc = [] then SeekStream.putAt c p ((b :: bs).take (k + 1)) else
                overwriteGap (SeekStream.putAt c p ((b :: bs).take (k + 1))) (p + ((b :: bs).take (k + 1)).length) acc)
                = (if (b :: bs).take (k + 1) ++ acc = [] then c else
                  overwriteGap c p ((b :: bs).take (k + 1) ++ acc)) := by
              rw [if_neg (show ¬ ((b :: bs).take (k + 1) ++ acc = []) by simp), putAt_eq]
              by_cases ha : acc = []
              · rw [if_pos ha, ha, List.append_nil]
              · rw [if_neg ha, overwriteGap_append]
            refine ⟨(b :: bs).take (k + 1) ++ acc, sc, ?_, ?_⟩
            · obtain ⟨t, ht⟩ := hp
              exact ⟨t, by rw [List.append_assoc, ht, List.take_append_drop]⟩
            · simp only [SeekStream.stdWriteAll]
              rw [hcomb] at hc
              rw [List.length_append, ← Nat.add_assoc]
              rcases hc with ⟨hc, ha⟩ | ⟨e', hc, ev, hev, hx⟩
              · exact .inl ⟨hc, by rw [ha, List.take_append_drop]⟩
              · exact .inr ⟨e', hc, ev, List.mem_cons_of_mem _ hev, hx⟩
  obtain ⟨acc, sc, hp, hc⟩ := key s.writes s.content s.pos.toNat buf
  have hle := hp.length_le
  refine ⟨acc, ⟨if acc = [] then s.content else overwriteGap s.content s.pos.toNat acc,
    UInt64.ofNat (s.pos.toNat + acc.length), s.reads, sc, s.seeks⟩, hp, rfl, ?_, ?_⟩
  · simp only
    rw [UInt64.toNat_ofNat', Nat.mod_eq_of_lt (by omega)]
  · simp only [Writer.writeAll, SeekStream.writeAll]
    rcases hc with ⟨hc, ha⟩ | ⟨e, hc, hx⟩
    · exact .inl ⟨by rw [hc]; rfl, ha⟩
    · exact .inr ⟨by rw [hc]; rfl, hx⟩

/-- Two short writes with an interruption in between, starting past the end. -/
example : Writer.writeAll [7, 8, 9] (⟨[1], 2, [], [.accept 1, .error .interrupted, .accept 2], []⟩ : SeekStream .checked) =
    (.ok (), ⟨[1, 0, 7, 8, 9], 5, [], [], []⟩) := by decide +kernel

end
end Verif.Props
