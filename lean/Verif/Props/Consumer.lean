import Verif.Props.Journal
import Verif.Props.Final
import Verif.Spec.Consumer
/-!
# C94: tags received in pieces
-/
namespace Verif
open Spec

/-- What is left of a particular slice. -/
def ByteArrayReader.viewOf (A : Bytes) : View ByteArrayReader where
  R r bs := r.array = A ∧ ByteArrayReader.view.R r bs
  E e := e = .endOfData ∨ e = .unableToReadData
  read_cons := by
    rintro r b bs ⟨hA, h, hb⟩
    have hl := congrArg List.length hb
    simp at hl
    have hlt : r.offset < r.array.length := by omega
    refine ⟨{ r with offset := r.offset + 1 }, (read_fits hlt).trans ?_, hA, hlt, ?_⟩
    · rw [List.drop_eq_getElem_cons hlt] at hb
      rw [← (List.cons_eq_cons.mp hb).1]
    · rw [List.drop_eq_getElem_cons hlt] at hb
      exact (List.cons_eq_cons.mp hb).2
  read_nil := by
    rintro r ⟨_, h, hb⟩
    have hl := congrArg List.length hb
    simp at hl
    exact ⟨_, _, read_refused (by omega), .inl rfl⟩
  readAll_ok := by
    rintro r bs n ⟨hA, h, rfl⟩ hn
    simp at hn
    exact ⟨_, readAll_fits (by omega), hA, by show r.offset + n ≤ r.array.length; omega, by simp⟩
  readAll_short := by
    rintro r bs n ⟨_, h, rfl⟩ hn
    simp at hn
    refine ⟨_, _, readAll_refused h (by omega), ?_⟩
    split <;> simp

end Verif

namespace Verif.Props
open Verif Verif.Spec
variable {P : Type}
set_option linter.unusedSectionVars false

section
variable [TagPayload P] [Env]

/-- A tag takes at least one byte. -/
theorem top_uses {e : Engine P} {bs rest : Bytes} {t : Tag P} (h : Parser.top e bs = .ok t rest) :
    rest.length < bs.length ∧ ∀ x, Parser.top e (bs ++ x) = .ok t (rest ++ x) := by
  obtain ⟨used, h1, h2⟩ := (Local.top e).ok h
  refine ⟨?_, fun x => by rw [h1, List.append_assoc]; exact h2 _⟩
  cases used with
  | nil =>
    have := h2 []
    rw [List.append_nil, top_eq] at this
    cases this
  | cons => rw [h1]; simp; omega

/-- What the loop does with the front of its buffer. -/
theorem drain_succ (e : Engine P) (n : Nat) (c : Consumer P) :
    (∀ t rest, Parser.top e c.buffer = .ok t rest →
      c.drain e (n + 1) = { c with buffer := rest, tags := c.tags ++ [t] : Consumer P }.drain e n) ∧
    ((Parser.top e c.buffer = .short ∨ ∃ i, Parser.top e c.buffer = .fail (.ioError i)) → c.drain e (n + 1) = c) ∧
    (∀ x, Parser.top e c.buffer = .fail x → (∀ i, x ≠ .ioError i) → c.drain e (n + 1) = { c with ended := some (.err x) }) ∧
    (Parser.top e c.buffer = .panic → c.drain e (n + 1) = { c with ended := some .panic }) ∧
    (Parser.top e c.buffer = .diverge → c.drain e (n + 1) = { c with ended := some .diverge }) := by
  have h := deserialize_matches e (ByteArrayReader.viewOf c.buffer) (s := .new c.buffer) ⟨rfl, ByteArrayReader.view_new _⟩
  refine ⟨fun t rest hq => ?_, fun hq => ?_, fun x hq hx => ?_, fun hq => ?_, fun hq => ?_⟩
  · rw [hq] at h
    obtain ⟨s', h1, h2, h3⟩ := h
    rw [Consumer.drain, h1]
    simp only
    rw [← h2, ← h3.2]
  · have : ∃ i s', Factory.deserialize e ByteArrayReader (.new c.buffer) = (.err (.ioError i), s') := by
      rcases hq with hq | ⟨i, hq⟩ <;> rw [hq] at h
      · obtain ⟨i, s', h, -⟩ := h
        exact ⟨i, s', h⟩
      · obtain ⟨s', h⟩ := h
        exact ⟨i, s', h⟩
    obtain ⟨i, s', h⟩ := this
    rw [Consumer.drain, h]
  · rw [hq] at h
    obtain ⟨s', h⟩ := h
    rw [Consumer.drain, h]
    cases x <;> first | rfl | exact absurd rfl (hx _)
  · rw [hq] at h
    obtain ⟨s', h⟩ := h
    rw [Consumer.drain, h]
  · rw [hq] at h
    obtain ⟨s', h⟩ := h
    rw [Consumer.drain, h]

theorem drain_empty (e : Engine P) (n : Nat) (c : Consumer P) (h : c.buffer = []) : c.drain e n = c := by
  cases n with
  | zero => rfl
  | succ n => exact (drain_succ e n c).2.1 (.inl (by rw [h, top_eq]; rfl))

/-- The number of rounds does not matter once it reaches the number of bytes. -/
theorem drain_rounds (e : Engine P) : ∀ (n m : Nat) (c : Consumer P), c.buffer.length ≤ n → c.buffer.length ≤ m →
    c.drain e n = c.drain e m
  | 0, m, c, h, _ => by
    have : c.buffer = [] := List.eq_nil_of_length_eq_zero (by omega)
    rw [drain_empty e m c this]; rfl
  | n + 1, 0, c, _, h => by
    have : c.buffer = [] := List.eq_nil_of_length_eq_zero (by omega)
    rw [drain_empty e (n + 1) c this]; rfl
  | n + 1, m + 1, c, h, h' => by
    obtain ⟨a1, a2, a3, a4, a5⟩ := drain_succ e n c
    obtain ⟨b1, b2, b3, b4, b5⟩ := drain_succ e m c
    cases hq : Parser.top e c.buffer with
    | ok t rest =>
      rw [a1 t rest hq, b1 t rest hq]
      have := (top_uses hq).1
      exact drain_rounds e n m _ (by simp only; omega) (by simp only; omega)
    | short => rw [a2 (.inl hq), b2 (.inl hq)]
    | fail x =>
      by_cases hx : ∃ i, x = .ioError i
      · obtain ⟨i, rfl⟩ := hx
        rw [a2 (.inr ⟨i, hq⟩), b2 (.inr ⟨i, hq⟩)]
      · have hx : ∀ i, x ≠ .ioError i := fun i h => hx ⟨i, h⟩
        rw [a3 x hq hx, b3 x hq hx]
    | panic => rw [a4 hq, b4 hq]
    | diverge => rw [a5 hq, b5 hq]

/-- Another piece arrives after the first was worked on, or together with it. -/
theorem drain_more (e : Engine P) (y : Bytes) : ∀ (n m : Nat) (c : Consumer P), c.ended = none → c.buffer.length ≤ n →
    (c.buffer ++ y).length ≤ m → (c.drain e n).feed e y = { c with buffer := c.buffer ++ y : Consumer P }.drain e m
  | 0, m, c, hc, h, hm => by
    have : c.buffer = [] := List.eq_nil_of_length_eq_zero (by omega)
    rw [drain_empty e 0 c this, Consumer.feed, hc]
    exact drain_rounds e _ _ _ (Nat.le_refl _) hm
  | n + 1, 0, c, hc, h, hm => by
    have h0 : c.buffer ++ y = [] := List.eq_nil_of_length_eq_zero (by omega)
    have : c.buffer = [] := (List.append_eq_nil_iff.mp h0).1
    rw [drain_empty e _ c this, Consumer.feed, hc]
    exact drain_rounds e _ _ _ (Nat.le_refl _) hm
  | n + 1, m + 1, c, hc, h, hm => by
    obtain ⟨a1, a2, a3, a4, a5⟩ := drain_succ e n c
    obtain ⟨b1, b2, b3, b4, b5⟩ := drain_succ e m { c with buffer := c.buffer ++ y }
    have wait : c.drain e (n + 1) = c →
        (c.drain e (n + 1)).feed e y = { c with buffer := c.buffer ++ y : Consumer P }.drain e (m + 1) := by
      intro hw
      rw [hw, Consumer.feed, hc]
      exact drain_rounds e _ _ _ (Nat.le_refl _) hm
    cases hq : Parser.top e c.buffer with
    | ok t rest =>
      obtain ⟨h1, h2⟩ := top_uses hq
      rw [a1 t rest hq, b1 t (rest ++ y) (h2 y)]
      exact drain_more e y n m { c with buffer := rest, tags := c.tags ++ [t] } hc (by simp only; omega)
        (by simp only [List.length_append] at hm ⊢; omega)
    | short => exact wait (a2 (.inl hq))
    | fail x =>
      by_cases hx : ∃ i, x = .ioError i
      · obtain ⟨i, rfl⟩ := hx
        exact wait (a2 (.inr ⟨i, hq⟩))
      · have hx : ∀ i, x ≠ .ioError i := fun i h => hx ⟨i, h⟩
        have := (Local.top e).more (bs := c.buffer) (by rw [hq]; trivial) y
        rw [a3 x hq hx, b3 x (this.trans hq) hx]
        rfl
    | panic =>
      have := (Local.top e).more (bs := c.buffer) (by rw [hq]; trivial) y
      rw [a4 hq, b4 (this.trans hq)]
      rfl
    | diverge =>
      have := (Local.top e).more (bs := c.buffer) (by rw [hq]; trivial) y
      rw [a5 hq, b5 (this.trans hq)]
      rfl

/-- Two pieces, one after the other or as one. -/
theorem feed_feed (e : Engine P) (c : Consumer P) (x y : Bytes) : (c.feed e x).feed e y = c.feed e (x ++ y) := by
  cases hc : c.ended with
  | some r => simp only [Consumer.feed, hc, List.append_assoc]
  | none =>
    have h1 : c.feed e x = { c with buffer := c.buffer ++ x : Consumer P }.drain e (c.buffer ++ x).length := by
      rw [Consumer.feed, hc]
    have h2 : c.feed e (x ++ y) = { c with buffer := c.buffer ++ (x ++ y) : Consumer P }.drain e (c.buffer ++ (x ++ y)).length := by
      rw [Consumer.feed, hc]
    rw [h1, h2, ← List.append_assoc]
    exact drain_more e y _ _ { c with buffer := c.buffer ++ x } hc (Nat.le_refl _) (Nat.le_refl _)

theorem feed_nil (e : Engine P) : (Consumer.start : Consumer P).feed e [] = .start := rfl

/-- **C94** How the data is cut into pieces makes no difference: the loop ends up with the same tags, the same unused
bytes and the same verdict as if all of it had arrived at once. -/
theorem C94_pieces (e : Engine P) (pieces : List Bytes) :
    pieces.foldl (Consumer.feed e) .start = Consumer.start.feed e pieces.flatten := by
  have h : ∀ (pieces : List Bytes) (x : Bytes),
      pieces.foldl (Consumer.feed e) (Consumer.start.feed e x) = Consumer.start.feed e (x ++ pieces.flatten) := by
    intro pieces
    induction pieces with
    | nil => simp
    | cons y ys ih =>
      intro x
      rw [List.foldl_cons, feed_feed, ih, List.flatten_cons, List.append_assoc]
  have := h pieces []
  rwa [feed_nil, List.nil_append] at this

/-- The loop delivers what successive calls of the factory deliver. -/
theorem drain_readSeq (e : Engine P) {σ : Type} [Reader σ] (V : View σ) {s s' : σ} {us : List (Tag P)}
    (h : ReadSeq e s us s') : ∀ (c : Consumer P) (rest : Bytes) (n : Nat), V.R s c.buffer → V.R s' rest →
    (∃ i s'', Factory.deserialize e σ s' = (.err (.ioError i), s'')) → us.length ≤ n →
    c.drain e n = { c with buffer := rest, tags := c.tags ++ us } := by
  induction h with
  | nil s =>
    rintro c rest n hR hR' ⟨i, s'', hf⟩ -
    have := V.unique hR hR'
    subst this
    rw [List.append_nil]
    cases n with
    | zero => rfl
    | succ n =>
      refine (drain_succ e n c).2.1 ?_
      have hm := deserialize_matches e V hR
      rw [hf] at hm
      cases hq : Parser.top e c.buffer with
      | ok t r => rw [hq] at hm; obtain ⟨_, h, -⟩ := hm; cases h
      | short => exact .inl rfl
      | fail x => rw [hq] at hm; obtain ⟨_, h⟩ := hm; cases h; exact .inr ⟨_, rfl⟩
      | panic => rw [hq] at hm; obtain ⟨_, h⟩ := hm; cases h
      | diverge => rw [hq] at hm; obtain ⟨_, h⟩ := hm; cases h
  | @cons s s₁ s₂ t ts h1 _ ih =>
    rintro c rest n hR hR' hf hn
    cases n with
    | zero => simp at hn
    | succ n =>
      have hm := deserialize_matches e V hR
      rw [h1] at hm
      cases hq : Parser.top e c.buffer with
      | ok t' r =>
        rw [hq] at hm
        obtain ⟨s₁', h, h'⟩ := hm
        simp only [Prod.mk.injEq, Res.ok.injEq] at h
        obtain ⟨rfl, rfl⟩ := h
        rw [(drain_succ e n c).1 t r hq, ih _ rest n h' hR' hf (by simpa using hn)]
        simp
      | short => rw [hq] at hm; obtain ⟨_, _, h, -⟩ := hm; cases h
      | fail x => rw [hq] at hm; obtain ⟨_, h⟩ := hm; cases h
      | panic => rw [hq] at hm; obtain ⟨_, h⟩ := hm; cases h
      | diverge => rw [hq] at hm; obtain ⟨_, h⟩ := hm; cases h

/-- **C94** The data is that of some tags, the first `k` bytes of it have arrived, in any pieces: every tag that is
whole has been delivered, in order, once, and no other; what is kept is a proper part of the next tag, and the loop
goes on. -/
theorem C94_delivers (hr : MemoryOk) (e : Engine P) (ts : List (Tag P)) (bss : List Bytes)
    (hts : ∀ t ∈ ts, MapsOk t ∧ PayloadsOk t ∧ Supported e t) (hb : ts.map Tag.toBytes = bss.map .ok) (k : Nat)
    (pieces : List Bytes) (hp : pieces.flatten = bss.flatten.take k) :
    ∃ us rest, pieces.foldl (Consumer.feed e) .start = { buffer := rest, tags := us, ended := none } ∧
      us.length ≤ ts.length ∧ (∀ (i : Nat) (h : i < ts.length) (h' : i < us.length), Same ts[i] us[i]) ∧
      (bss.take us.length).flatten ++ rest = bss.flatten.take k ∧
      (∀ h : us.length < bss.length, rest.length < bss[us.length].length ∧ rest <+: bss[us.length]) := by
  obtain ⟨us, s', rest, h1, h2, h3, h4, h5, h6, h7⟩ := C93_cut hr e ts bss hts hb k ByteArrayReader.view.toView
    (.new (bss.flatten.take k)) (ByteArrayReader.view_new _)
  refine ⟨us, rest, ?_, h3, h4, h5, h6⟩
  rw [C94_pieces, hp]
  have hlen : us.length ≤ (bss.flatten.take k).length := by
    have h8 : ∀ {s s' : ByteArrayReader} {us : List (Tag P)}, ReadSeq e s us s' → ∀ bs rest,
        ByteArrayReader.view.R s bs → ByteArrayReader.view.R s' rest → us.length + rest.length ≤ bs.length := by
      intro s s' us h
      induction h with
      | nil s => intro bs rest h h'; rw [ByteArrayReader.view.toView.unique h h']; simp
      | @cons s s₁ s₂ t ts h1 _ ih =>
        intro bs rest h h'
        have hm := deserialize_matches e ByteArrayReader.view.toView h
        rw [h1] at hm
        cases hq : Parser.top e bs with
        | ok t' r =>
          rw [hq] at hm
          obtain ⟨s₁', h8, h9⟩ := hm
          simp only [Prod.mk.injEq, Res.ok.injEq] at h8
          obtain ⟨rfl, rfl⟩ := h8
          have := ih r rest h9 h'
          have := (top_uses hq).1
          simp only [List.length_cons]
          omega
        | short => rw [hq] at hm; obtain ⟨_, _, h, -⟩ := hm; cases h
        | fail x => rw [hq] at hm; obtain ⟨_, h⟩ := hm; cases h
        | panic => rw [hq] at hm; obtain ⟨_, h⟩ := hm; cases h
        | diverge => rw [hq] at hm; obtain ⟨_, h⟩ := hm; cases h
    have := h8 h1 _ _ (ByteArrayReader.view_new _) h2
    omega
  simp only [Consumer.feed, Consumer.start, List.nil_append]
  rw [drain_readSeq e ByteArrayReader.view.toView h1 _ rest _ (ByteArrayReader.view_new _) h2 h7 hlen]
  simp

/-- **C94** The price of waiting on i/o errors: when a tag has arrived whole, as its id and size have it, and the
factory still answers with an i/o error (a tag nested in it runs over its end), nothing is delivered any more, whatever
arrives; all of it is kept. -/
theorem C94_stalls (e : Engine P) (id : UInt64) (size : Nat) (idb szb v : Bytes) (hid : IsILInt idb id.toNat)
    (hsz : id.toNat ≤ 15 ∧ szb = [] ∧ size = implicitLen id.toNat ∨ 16 ≤ id.toNat ∧ IsILInt szb size)
    (hv : size ≤ v.length) (i : IoErr)
    (hf : (Factory.deserialize e ByteArrayReader (.new (idb ++ szb ++ v))).1 = .err (.ioError i))
    (pieces : List Bytes) (x : Bytes) (hp : pieces.flatten = idb ++ szb ++ v ++ x) :
    pieces.foldl (Consumer.feed e) .start = { buffer := pieces.flatten, tags := [], ended := none } := by
  rw [C94_pieces, hp]
  have h := (C90_final e ByteArrayReader.view.toView ByteArrayReader.view.toView _ _ id size idb szb v x hid hsz hv
    (ByteArrayReader.view_new _) (ByteArrayReader.view_new _)).1
  rw [hf] at h
  obtain ⟨j, s', h'⟩ : ∃ j s', Factory.deserialize e ByteArrayReader (.new (idb ++ szb ++ v ++ x)) = (.err (.ioError j), s') := by
    generalize Factory.deserialize e ByteArrayReader (.new (idb ++ szb ++ v ++ x)) = q at *
    obtain ⟨r, s'⟩ := q
    match r, h with
    | .err (.ioError j), _ => exact ⟨j, s', rfl⟩
    | .ok _, h => cases h
    | .panic, h => cases h
    | .diverge, h => cases h
  simp only [Consumer.feed, Consumer.start, List.nil_append]
  exact drain_readSeq e ByteArrayReader.view.toView (.nil _) ⟨_, [], none⟩ _ _ (ByteArrayReader.view_new _)
    (ByteArrayReader.view_new _) ⟨j, s', h'⟩ (Nat.zero_le _)

end

section
attribute [local instance] bigEnv

-- a string, an ILInt tag and the start of another tag, a few bytes at a time
example : (match [[17], [2, 97], [], [98, 10], [5, 1]].foldl (Consumer.feed (Engine.std true : Engine Empty)) .start with
    | ⟨[1], [.atom (.string 17 "ab"), .atom (.ilint 10 5)], none⟩ => true
    | _ => false) = true := by
  simp only [List.foldl, Consumer.feed, Consumer.start, List.nil_append, List.length, Consumer.drain]
  rw [deserialize_eq]
  decide +kernel

-- the tags of `C94_delivers`
example (k : Nat) (pieces : List Bytes) (hp : pieces.flatten = [enc sample, enc sample].flatten.take k) :
    (pieces.foldl (Consumer.feed sampleEngine) .start).ended = none := by
  obtain ⟨us, rest, h, -⟩ := C94_delivers bigEnv_ok sampleEngine [sample, sample] [enc sample, enc sample]
    (fun t ht => by
      simp only [List.mem_cons, List.not_mem_nil, or_false, or_self] at ht
      subst ht
      exact ⟨sample_maps, sample_payloads _, sample_supported⟩)
    (by simp [toBytes_eq_enc bigEnv_ok sample_maps (sample_payloads _) sample_supported]) k pieces hp
  rw [h]

-- a sequence of three bytes with a string in it that claims four: nothing is delivered any more
example (x : Bytes) (pieces : List Bytes) (hp : pieces.flatten = [22] ++ [3] ++ [17, 2, 97] ++ x) :
    (pieces.foldl (Consumer.feed (Engine.std true : Engine Empty)) .start).tags = [] := by
  obtain ⟨i, h⟩ : ∃ i, (Factory.deserialize (Engine.std true : Engine Empty) ByteArrayReader
      (.new ([22] ++ [3] ++ [17, 2, 97]))).1 = .err (.ioError i) := by
    have hm : (match (Factory.deserialize (Engine.std true : Engine Empty) ByteArrayReader
      (.new ([22] ++ [3] ++ [17, 2, 97]))).1 with
        | .err (.ioError _) => true
        | _ => false) = true := by rw [deserialize_eq]; decide +kernel
    split at hm
    · exact ⟨_, by assumption⟩
    · cases hm
  generalize (Engine.std true : Engine Empty) = e at *
  rw [C94_stalls e 22 3 [22] [3] [17, 2, 97] ⟨by decide, .inl ⟨22, rfl, by decide, rfl⟩⟩
    (.inr ⟨by decide, ⟨by decide, .inl ⟨3, rfl, by decide, rfl⟩⟩⟩) (Nat.le_refl _) i h pieces x hp]
end

end Verif.Props
