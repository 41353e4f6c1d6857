import Verif.Props.Faults
import Verif.Props.Access
import Verif.Spec.Index
import Verif.Proof.Requests
/-!
# C99: an index made by scanning, and look-ups through it
-/
namespace Verif.Props
open Verif Verif.Spec

section
variable {P : Type} [TagPayload P] {σ ρ : Type} [Reader σ] [Reader ρ] {m : ArithMode}

/-- An action on any reader does on a reader with faults what it does on one without, or fails with an i/o error. -/
theorem isR_faulty {α : Type} {T : PS Unit α} {g : Gen α} (hT : IsR T g) (E : Env) (F : FaultyView σ) (V : View ρ) {s : σ}
    {c c' : ρ} {a : α} {bs : Bytes} (hR : F.R s bs) (hV : V.R c bs) (h : g E ρ ‹Reader ρ› c = (.ok a, c')) :
    (∃ k s', g E σ ‹Reader σ› s = (.err (.ioError k), s')) ∨ ∃ s' rest, g E σ ‹Reader σ› s = (.ok a, s') ∧ F.R s' rest ∧ V.R c' rest := by
  letI := E
  have h1 := hT E σ ‹Reader σ› s
  have h2 := hT E ρ ‹Reader ρ› c
  rw [h] at h2
  simp only [Prod.mk.injEq] at h2
  rcases run_faulty F V (T ()) hR hV with ⟨k, hk⟩ | ⟨h3, h4⟩
  · exact .inl ⟨k, _, by rw [h1, hk]⟩
  · rw [← h2.1] at h3
    obtain ⟨rest, h5, h6⟩ := h4 (by rw [h3]; rfl)
    exact .inr ⟨_, rest, by rw [h1, h3], h5, by rw [h2.2]; exact h6⟩

/-- `extract_tag_size` as a tree. -/
theorem isR_extract (id : UInt64) : ∃ T : PS Unit (UInt64 × UInt64 × UInt64),
    IsR T fun _ _ _ => RawTagScanner.extractTagSize id :=
  ⟨_, IsR.ite (IsR.ite (IsR.bind IsR.read fun _ => IsR.pure _) (IsR.ite (IsR.fail _) (IsR.pure _)))
    (IsR.bind IsR.ilint fun _ => IsR.pure _)⟩

theorem _root_.Verif.RawTagScanner.nextTag_skip_err {off : UInt64} {s s₁ s₂ s₃ : σ} {id a b c : UInt64} {k : IoErr}
    (h1 : (Ser.deserializeILInt : Act TagErr σ UInt64) s = (.ok id, s₁))
    (h2 : RawTagScanner.extractTagSize id s₁ = (.ok (a, b, c), s₂))
    (ho : off.toNat + ((ilSize id).toNat + a.toNat + b.toNat) < 2 ^ 64)
    (h3 : Reader.skipU64 c s₂ = (.err k, s₃)) :
    RawTagScanner.nextTag m ⟨off, s⟩ = (.err (.ioError k), ⟨off + (ilSize id + a + b), s₃⟩) := by
  have e1 : (ilSize id + a).toNat = (ilSize id).toNat + a.toNat := by
    rw [UInt64.toNat_add, Nat.mod_eq_of_lt (by omega)]
  have e2 : (ilSize id + a + b).toNat = (ilSize id).toNat + a.toNat + b.toNat := by
    rw [UInt64.toNat_add, e1, Nat.mod_eq_of_lt (by omega)]
  unfold RawTagScanner.nextTag
  rw [Act.bind_ok (RawTagScanner.onReader_apply h1), Act.bind_ok (RawTagScanner.onReader_apply h2)]
  simp only
  rw [addU64_ok (by omega)]
  rw [Act.bind_ok (show Act.lift (Res.ok (ilSize id + a)) _ = (.ok _, _) from rfl)]
  rw [Act.bind_ok (show (Act.get : Act TagErr (RawTagScanner σ) _) _ = (.ok _, _) from rfl)]
  simp only
  rw [addU64_ok (by omega), Act.bind_ok (show Act.lift (Res.ok (ilSize id + a + b)) _ = (.ok _, _) from rfl)]
  rw [addU64_ok (by omega), Act.bind_ok (show Act.lift (Res.ok (off + (ilSize id + a + b))) _ = (.ok _, _) from rfl)]
  rw [Act.bind_ok (show Act.set _ _ = (.ok (), _) from rfl)]
  have h4 : (tagIo (Reader.skipU64 c) : Act TagErr σ Unit) s₂ = (.err (.ioError k), s₃) := by
    simp only [tagIo, Act.mapErr, h3, Res.mapErr]
  rw [Act.bind_err (RawTagScanner.onReader_apply h4)]

/-- One scan on a reader with faults, where a reader without faults finds a tag. -/
theorem nextTag_faulty (F : FaultySkipView σ) (V : SkipView ρ) {off off' : UInt64} {s : σ} {c c' : ρ} {o : RawTagOffset}
    {bs : Bytes} (hR : F.R s bs) (hV : V.R c bs) (h : RawTagScanner.nextTag m ⟨off, c⟩ = (.ok (some o), ⟨off', c'⟩))
    (ho : off.toNat + (o.headerSize.toNat + o.valueSize.toNat) < 2 ^ 64) :
    (∃ k, (RawTagScanner.nextTag m ⟨off, s⟩).1 = .err (.ioError k)) ∨
    ∃ s' rest, RawTagScanner.nextTag m ⟨off, s⟩ = (.ok (some o), ⟨off', s'⟩) ∧ F.R s' rest ∧ V.R c' rest := by
  obtain ⟨o', c₁, c₂, a, n, h0, h1, h2, h3, h4, h5, h6⟩ := RawTagScanner.nextTag_inv h
  cases Option.some.inj h0
  simp only at h1 h3 h4 h6
  rcases isR_faulty IsR.ilint bigEnv F.toFaultyView V.toView hR hV h1 with ⟨k, s₁, k1⟩ | ⟨s₁, r₁, k1, k2, k3⟩
  · refine .inl ⟨k, ?_⟩
    unfold RawTagScanner.nextTag
    rw [Act.bind_err (RawTagScanner.onReader_apply k1)]
  obtain ⟨T, hT⟩ := isR_extract o.id
  rcases isR_faulty hT bigEnv F.toFaultyView V.toView k2 k3 h2 with ⟨k, s₂, k4⟩ | ⟨s₂, r₂, k4, k5, k6⟩
  · refine .inl ⟨k, ?_⟩
    unfold RawTagScanner.nextTag
    rw [Act.bind_ok (RawTagScanner.onReader_apply k1), Act.bind_err (RawTagScanner.onReader_apply k4)]
  have hn : n.toNat ≤ r₂.length := by
    refine Nat.le_of_not_lt fun hx => ?_
    obtain ⟨e, c₃, h7⟩ := V.skipU64_short k6 hx
    rw [h7] at h3
    simp at h3
  obtain ⟨c₃, h7, h8⟩ := V.skipU64_ok k6 hn
  rw [h7] at h3
  simp only [Prod.mk.injEq, true_and] at h3
  subst h3
  obtain ⟨sz, value, -, -, ha, -⟩ := layout_of_extract (V := V.toView) h2 k3 k6 hn
  have hi9 := ilint_le9 o.id.toNat
  have hm9 : minSize o.id.toNat value ≤ 9 := by
    unfold minSize; split
    · exact ilint_le9 _
    · omega
  have e1 : (ilSize o.id).toNat = (Spec.ilint o.id.toNat).length := by rw [ilSize_eq, ofNat_toNat64 (by omega)]
  have e2 : a.toNat = minSize o.id.toNat value := by rw [ha, ofNat_toNat64 (by omega)]
  have e3 : o.headerSize.toNat = (ilSize o.id).toNat + a.toNat := by
    rw [h5, UInt64.toNat_add, Nat.mod_eq_of_lt (by omega)]
  rcases F.skipU64_any n k5 hn with ⟨s₃, k7, k8⟩ | ⟨k, s₃, k7⟩
  · refine .inr ⟨s₃, _, ?_, k8, h8⟩
    rw [RawTagScanner.nextTag_ok k1 k4 (by rw [← e3]; omega) k7, h6, ← h5, ← h4]
  · refine .inl ⟨k, ?_⟩
    rw [RawTagScanner.nextTag_skip_err k1 k4 (by rw [← e3]; omega) k7]

theorem nextTag_std_faulty [TagPayload P] (F : FaultySkipView σ) (t : Tag P) (pos : Nat) {s : σ} {y : Bytes}
    (hR : F.R s (enc t ++ y)) (hl : StdLayout t) (hp : pos + (enc t).length < 2 ^ 64) :
    (∃ k, (RawTagScanner.nextTag m ⟨UInt64.ofNat pos, s⟩).1 = .err (.ioError k)) ∨
    ∃ o s', positions pos [t] = [o] ∧
      RawTagScanner.nextTag m ⟨UInt64.ofNat pos, s⟩ = (.ok (some o), ⟨UInt64.ofNat (pos + (enc t).length), s'⟩) ∧
      F.R s' y := by
  obtain ⟨c', h1, h2⟩ := scan_from (m := m) ByteArrayReader.view [t] pos (ByteArrayReader.new (enc t ++ y)) y
    (by simpa using ByteArrayReader.view_new (enc t ++ y)) (by simpa using hl) (by simpa using hp)
  have hlen : (encValue t).length ≤ (enc t).length := by rw [enc_eq]; exact Nat.le_of_succ_le (wrap_length_ge _ _)
  simp only [positions, List.flatMap_cons, List.flatMap_nil, List.append_nil] at h1
  obtain _ | @⟨_, ⟨o2, c2⟩, _, _, _, h3, h4⟩ := h1
  cases h4
  rcases nextTag_faulty F ByteArrayReader.view hR (ByteArrayReader.view_new _) h3 (by
    simp only
    rw [ofNat_toNat64 (by omega), ofNat_toNat64 (by omega), ofNat_toNat64 (by omega)]
    omega) with h | ⟨s', rest, h5, h6, h7⟩
  · exact .inl h
  · cases ByteArrayReader.view.unique h2 h7
    exact .inr ⟨_, s', rfl, h5, h6⟩

theorem scan_faulty_from [TagPayload P] (F : FaultySkipView σ) (x : Bytes) : ∀ (ts : List (Tag P)) (pos : Nat) (s : σ)
    (os : List RawTagOffset) (sc : RawTagScanner σ),
    F.R s (ts.flatMap enc ++ x) → (∀ t ∈ ts, StdLayout t) → pos + (ts.flatMap enc).length < 2 ^ 64 →
    ScanSeq m ⟨UInt64.ofNat pos, s⟩ os sc → os.length ≤ ts.length →
    os = (positions pos ts).take os.length ∧ F.R sc.reader ((ts.drop os.length).flatMap enc ++ x) ∧
      sc.offset = UInt64.ofNat (pos + ((ts.take os.length).flatMap enc).length) := by
  intro ts
  induction ts with
  | nil =>
    intro pos s os sc hR _ _ h hn
    cases os with
    | nil => cases h; simpa using hR
    | cons o os => simp at hn
  | cons t ts ih =>
    intro pos s os sc hR hl hp h hn
    cases h with
    | nil => simpa using hR
    | @cons _ s' _ o os h1 h2 =>
      simp only [List.flatMap_cons, List.length_append, List.append_assoc] at hR hp
      rcases nextTag_std_faulty (m := m) F t pos hR (hl t (List.mem_cons_self ..)) (by omega) with
        ⟨k, h3⟩ | ⟨o', s₁, h3, h4, h5⟩
      · rw [h1] at h3; simp at h3
      · rw [h1] at h4
        simp only [Prod.mk.injEq, Res.ok.injEq, Option.some.injEq] at h4
        obtain ⟨rfl, rfl⟩ := h4
        obtain ⟨h6, h7, h8⟩ := ih _ s₁ os sc h5 (fun u hu => hl u (List.mem_cons_of_mem _ hu)) (by omega) h2
          (by simpa using hn)
        simp only [positions, List.cons.injEq, and_true] at h3 ⊢
        refine ⟨?_, by simpa using h7, ?_⟩
        · rw [List.length_cons, List.take_succ_cons, ← h6, h3]
        · rw [h8]; simp [Nat.add_assoc]

/-- **C99** Scanning serialized tags through a reader that may fail at any call: what the calls that succeed give are the
places of the tags from the first one on, none missed and none invented; and the next call gives the place of the next
tag or fails with an i/o error. -/
theorem C99_scan [TagPayload P] (F : FaultySkipView σ) (ts : List (Tag P)) {s : σ} {x : Bytes}
    (hR : F.R s (ts.flatMap enc ++ x)) (hl : ∀ t ∈ ts, StdLayout t) (hlen : (ts.flatMap enc).length < 2 ^ 64)
    {os : List RawTagOffset} {sc : RawTagScanner σ} (h : ScanSeq m (RawTagScanner.new s) os sc)
    (hn : os.length ≤ ts.length) :
    os = (positions 0 ts).take os.length ∧ F.R sc.reader ((ts.drop os.length).flatMap enc ++ x) ∧
    (os.length < ts.length → (∃ k, (RawTagScanner.nextTag m sc).1 = .err (.ioError k)) ∨
      (RawTagScanner.nextTag m sc).1 = .ok (positions 0 ts)[os.length]?) := by
  obtain ⟨h1, h2, h3⟩ := scan_faulty_from F x ts 0 s os sc hR hl (by omega) h hn
  refine ⟨h1, h2, fun hlt => ?_⟩
  obtain ⟨a, t, b, rfl, ha⟩ : ∃ a t b, ts = a ++ t :: b ∧ a.length = os.length :=
    ⟨ts.take os.length, ts[os.length], ts.drop (os.length + 1), by simp, by simp; omega⟩
  obtain ⟨off, rd⟩ := sc
  simp only [← ha, List.drop_left, List.take_left, List.flatMap_cons, Nat.zero_add] at h2 h3
  subst h3
  simp only [List.flatMap_append, List.flatMap_cons, List.length_append, List.append_assoc] at h2 hlen
  rcases nextTag_std_faulty (m := m) F t (a.flatMap enc).length h2 (hl t (by simp)) (by omega) with h4 | ⟨o, s', h5, h6, -⟩
  · exact .inl h4
  · refine .inr ?_
    rw [h6, ← ha, positions_split, List.getElem?_append_right (by rw [positions_length]; omega), positions_length,
      Nat.sub_self, Nat.zero_add]
    simp only [positions, List.cons.injEq, and_true] at h5 ⊢
    rw [List.getElem?_cons_zero, h5]

end

/-! ### Readers over `std::io::Read` and `Read + Seek` -/

theorem defaultSkip_any {σ : Type} [Reader σ] (F : FaultyView σ) {s : σ} {bs : Bytes} (n : Nat) (h : F.R s bs)
    (hn : n ≤ bs.length) :
    (∃ s', defaultSkip (Reader.readAll (σ := σ)) n s = (.ok (), s') ∧ F.R s' (bs.drop n)) ∨
    ∃ e s', defaultSkip (Reader.readAll (σ := σ)) n s = (.err e, s') := by
  induction n using Nat.strongRecOn generalizing s bs with
  | ind n ih =>
    rw [defaultSkip]
    by_cases h0 : n = 0
    · subst h0; exact .inl ⟨s, rfl, by simpa using h⟩
    · rw [dif_neg h0]
      rcases F.readAll_any (min n 512) h with ⟨-, s1, hr, h1⟩ | ⟨e, s1, hr⟩
      · rw [Act.bind_ok hr]
        rcases ih (n - min n 512) (by omega) h1 (by simp; omega) with ⟨s2, h2, h3⟩ | h2
        · refine .inl ⟨s2, h2, ?_⟩
          rw [List.drop_drop] at h3
          rwa [show min n 512 + (n - min n 512) = n by omega] at h3
        · exact .inr h2
      · exact .inr ⟨e, s1, Act.bind_err hr⟩

/-- A `ReadReader` over a source with any schedule. -/
def _root_.Verif.ReadReader.faultySkip : FaultySkipView ReadReader where
  toFaultyView := ReadReader.faulty
  skipU64_any := by
    intro s bs n h hn
    rw [show Reader.skipU64 n s = defaultSkip (Reader.readAll (σ := ReadReader)) n.toNat s from
      defaultSkipU64_eq _ (fun s => by rw [defaultSkip]; rfl) n s]
    exact defaultSkip_any _ _ h hn

theorem seekTo_any {m : ArithMode} (p : UInt64) (s : SeekStream m) :
    ∃ s', (SeekStream.seekTo p s = (.ok p, s') ∧ s'.pos = p ∨
      ∃ e, SeekStream.seekTo p s = (.err e, s') ∧ s'.pos = s.pos) ∧ s'.content = s.content := by
  unfold SeekStream.seekTo
  split
  · exact ⟨_, .inr ⟨_, rfl, rfl⟩, rfl⟩
  · exact ⟨_, .inl ⟨rfl, rfl⟩, rfl⟩
  · exact ⟨_, .inl ⟨rfl, rfl⟩, rfl⟩

/-- A seekable source with content `c` and any schedule. -/
def _root_.Verif.SeekStream.faultySkip (m : ArithMode) (c : Bytes) (hl : c.length < 2 ^ 64) :
    FaultySkipView (SeekStream m) where
  toFaultyView := SeekStream.faulty m c hl
  skipU64_any := by
    rintro s bs n ⟨rfl, rfl⟩ hn
    show (∃ s', SeekStream.skipU64 n s = _ ∧ _) ∨ ∃ e s', SeekStream.skipU64 n s = _
    unfold SeekStream.skipU64
    by_cases h0 : n = 0
    · subst h0
      rw [if_pos rfl]
      exact .inl ⟨s, rfl, rfl, by simp⟩
    · rw [if_neg h0]
      have hn0 : n.toNat ≠ 0 := fun h => h0 (UInt64.toNat_inj.mp (by simpa using h))
      rw [List.length_drop] at hn
      have he : (UInt64.ofNat s.content.length).toNat = s.content.length := ofNat_toNat64 hl
      obtain ⟨s₁, ⟨h1, hp1⟩ | ⟨e, h1, -⟩, hc1⟩ := seekTo_any s.pos s
      rotate_left
      · exact .inr ⟨e, s₁, Act.bind_err h1⟩
      rw [show (SeekStream.seekCur >>= _ : Act IoErr (SeekStream m) Unit) s = _ from Act.bind_ok h1]
      obtain ⟨s₂, ⟨h2, hp2⟩ | ⟨e, h2, -⟩, hc2⟩ := seekTo_any (UInt64.ofNat s₁.content.length) s₁
      rotate_left
      · exact .inr ⟨e, s₂, Act.bind_err h2⟩
      rw [show (SeekStream.seekEnd >>= _ : Act IoErr (SeekStream m) Unit) s₁ = _ from Act.bind_ok h2]
      rw [hc1]
      rw [if_neg (fun h => by have := congrArg UInt64.toNat h; omega)]
      rw [addU64_ok (by omega), Act.bind_ok (show Act.lift (Res.ok (s.pos + n)) _ = (.ok _, _) from rfl)]
      have hpn : (s.pos + n).toNat = s.pos.toNat + n.toNat := by
        rw [UInt64.toNat_add, Nat.mod_eq_of_lt (by omega)]
      rw [if_pos (by rw [UInt64.le_iff_toNat_le, hpn, he]; omega)]
      obtain ⟨s₃, ⟨h3, hp3⟩ | ⟨e, h3, -⟩, hc3⟩ := seekTo_any (s.pos + n) s₂
      rotate_left
      · exact .inr ⟨e, s₃, Act.bind_err h3⟩
      rw [show (SeekStream.seekStart (s.pos + n) >>= _ : Act IoErr (SeekStream m) Unit) s₂ = _ from Act.bind_ok h3]
      refine .inl ⟨s₃, rfl, by rw [hc3, hc2, hc1], ?_⟩
      rw [hp3, hpn, List.drop_drop]

/-! ### What uses leave of a source -/

/-- The action keeps `I`, whatever its result. -/
def Keeps {ε τ α : Type} (I : τ → Prop) (x : Act ε τ α) : Prop := ∀ s, I s → I (x s).2

theorem Keeps.bind {ε τ α β : Type} {I : τ → Prop} {x : Act ε τ α} {k : α → Act ε τ β} (h : Keeps I x)
    (hk : ∀ a, Keeps I (k a)) : Keeps I (x >>= k) := by
  intro s hs
  have h' := h s hs
  rcases hx : x s with ⟨r, s'⟩
  rw [hx] at h'
  cases r with
  | ok a => rw [Act.bind_ok hx]; exact hk a s' h'
  | err e => rw [Act.bind_err hx]; exact h'
  | panic => rw [Act.bind_panic hx]; exact h'
  | diverge => rw [Act.bind_diverge hx]; exact h'

theorem Keeps.ite {ε τ α : Type} {I : τ → Prop} {x y : Act ε τ α} {c : Prop} [Decidable c] (h : Keeps I x) (h' : Keeps I y) :
    Keeps I (if c then x else y) := by split <;> assumption

theorem Keeps.of_isR {α σ : Type} [i : Reader σ] {T : PS Unit α} {g : Gen α} (hT : IsR T g) (E : Env) (I : σ → Prop)
    (h1 : Keeps I (Reader.read (σ := σ))) (h2 : ∀ n, Keeps I (Reader.readAll (σ := σ) n)) : Keeps I (g E σ i) := by
  intro s hs
  rw [hT E σ i s]
  letI := E
  exact run_keeps I h1 h2 (T ()) s hs

theorem Keeps.onReader {ε α σ : Type} {I : σ → Prop} {x : Act ε σ α} (h : Keeps I x) :
    Keeps (fun sc : RawTagScanner σ => I sc.reader) (RawTagScanner.onReader x) := fun sc hs => h sc.reader hs

theorem nextTag_keeps {σ : Type} [Reader σ] {m : ArithMode} (I : σ → Prop) (h1 : Keeps I (Reader.read (σ := σ)))
    (h2 : ∀ n, Keeps I (Reader.readAll (σ := σ) n)) (h3 : ∀ n, Keeps I (Reader.skipU64 (σ := σ) n)) :
    Keeps (fun sc : RawTagScanner σ => I sc.reader) (RawTagScanner.nextTag m) := by
  unfold RawTagScanner.nextTag
  refine .bind (.onReader (.of_isR IsR.ilint bigEnv I h1 h2)) fun id => ?_
  obtain ⟨T, hT⟩ := isR_extract id
  refine .bind (.onReader (.of_isR hT bigEnv I h1 h2)) fun a => ?_
  refine .bind (fun _ h => h) fun hs => ?_
  intro sc hsc
  rw [Act.bind_ok (show (Act.get : Act TagErr (RawTagScanner σ) _) sc = (.ok sc, sc) from rfl)]
  revert hsc
  intro hsc
  refine Keeps.bind (I := fun sc : RawTagScanner σ => I sc.reader) (x := Act.lift _) (fun _ h => h) (fun tot => ?_) sc hsc
  refine .bind (x := Act.lift _) (fun _ h => h) fun off => ?_
  refine .bind (x := Act.set _) (fun _ _ => hsc) fun _ => ?_
  refine .bind (.onReader ?_) fun _ => fun _ h => h
  intro s hs
  have := h3 a.2.2 s hs
  exact this

theorem seekTo_keeps {m : ArithMode} (c : Bytes) (p : UInt64) :
    Keeps (fun s : SeekStream m => s.content = c) (SeekStream.seekTo p) := by
  intro s hs
  obtain ⟨s', h | ⟨e, h⟩, hc⟩ := seekTo_any p s <;> rw [h.1] <;> exact hc.trans hs

theorem skipU64_keeps {m : ArithMode} (c : Bytes) (n : UInt64) :
    Keeps (fun s : SeekStream m => s.content = c) (Reader.skipU64 n) := by
  show Keeps _ (SeekStream.skipU64 n)
  unfold SeekStream.skipU64
  refine .ite (fun _ h => h) (.bind (fun s => seekTo_keeps c _ s) fun a => .bind (fun s => seekTo_keeps c _ s) fun b => ?_)
  refine .ite (fun _ h => h) (.bind (fun _ h => h) fun d => .ite ?_ (fun _ h => h))
  exact .bind (fun s => seekTo_keeps c _ s) fun _ => fun _ h => h

theorem uses_content {P : Type} [TagPayload P] [Env] {m : ArithMode} {e : Engine P} {s s' : SeekStream m}
    (h : Uses e s s') : s'.content = s.content := by
  have hr : ∀ c, Keeps (fun x : SeekStream m => x.content = c) Reader.read := fun c s h => by
    exact (seek_read_content s).trans h
  induction h with
  | none => rfl
  | tag _ ih =>
    rw [← ih]
    obtain ⟨T, -, hT⟩ := C37_requests e
    rw [hT]
    exact run_keeps (fun x : SeekStream m => x.content = _) (hr _) (fun _ _ h => h) T _ rfl
  | scan off _ ih =>
    rw [← ih]
    exact nextTag_keeps (fun x : SeekStream m => x.content = _) (hr _) (fun _ _ h => h) (skipU64_keeps _) ⟨off, _⟩ rfl
  | bytes n _ ih => exact ih
  | skip n _ ih => rw [← ih]; exact skipU64_keeps _ n _ rfl
  | seek p _ ih => rw [← ih]; exact seekTo_keeps _ p _ rfl

theorem scanSeq_content {m : ArithMode} {sc sc' : RawTagScanner (SeekStream m)} {os : List RawTagOffset}
    (h : ScanSeq m sc os sc') : sc'.reader.content = sc.reader.content := by
  induction h with
  | nil => rfl
  | @cons s s' s'' o os h1 _ ih =>
    rw [ih]
    have := nextTag_keeps (m := m) (fun x : SeekStream m => x.content = s.reader.content)
      (fun s h => (@seek_read_content bigEnv m s).trans h) (fun _ _ h => h) (skipU64_keeps _) s rfl
    rw [h1] at this
    exact this

section
variable {P : Type} [TagPayload P] [Env] {m : ArithMode}

theorem flatten_enc (hr : MemoryOk) {e : Engine P} (ts : List (Tag P)) : ∀ (bss : List Bytes),
    (∀ t ∈ ts, MapsOk t ∧ PayloadsOk t ∧ Supported e t) → ts.map Tag.toBytes = bss.map .ok → bss = ts.map enc := by
  induction ts with
  | nil => intro bss _ hb; cases bss with
    | nil => rfl
    | cons b bs => simp at hb
  | cons t ts ih =>
    intro bss hts hb
    cases bss with
    | nil => simp at hb
    | cons b bs =>
      simp only [List.map_cons, List.cons.injEq] at hb
      obtain ⟨h1, h2, h3⟩ := hts t (List.mem_cons_self ..)
      have h4 := toBytes_eq_enc hr h1 h2 h3
      rw [hb.1, Res.ok.injEq] at h4
      rw [List.map_cons, h4, ih bs (fun u hu => hts u (List.mem_cons_of_mem _ hu)) hb.2]

/-- **C99** An index of a seekable source, made by scanning from the start as far as it went, and any uses of the source
before and after, with whatever faults: a seek that succeeds to the offset of the `i`-th entry, and reading there, fails
with an i/o error or gives the `i`-th tag and stands at the tag that follows it. -/
theorem C99_lookup (hr : MemoryOk) (e : Engine P) (ts : List (Tag P)) (bss : List Bytes)
    (hts : ∀ t ∈ ts, MapsOk t ∧ PayloadsOk t ∧ Supported e t) (hb : ts.map Tag.toBytes = bss.map .ok) (x : Bytes)
    (hl : ∀ t ∈ ts, StdLayout t) {s₀ s₁ s₂ s₃ : SeekStream m} (hc : s₀.content = bss.flatten ++ x)
    (hlen : s₀.content.length < 2 ^ 64) (h1 : Uses e s₀ s₁) (hpos : s₁.pos = 0) {os : List RawTagOffset}
    {sc : RawTagScanner (SeekStream m)} (h2 : ScanSeq m (RawTagScanner.new s₁) os sc) (hn : os.length ≤ ts.length)
    (h3 : Uses e sc.reader s₂) {i : Nat} {o : RawTagOffset} (ho : os[i]? = some o) {p : UInt64}
    (hseek : SeekStream.seekStart o.offset s₂ = (.ok p, s₃)) :
    (∃ k, (Factory.deserialize e (SeekStream m) s₃).1 = .err (.ioError k)) ∨
    ∃ t t' s₄, ts[i]? = some t ∧ Factory.deserialize e (SeekStream m) s₃ = (.ok t', s₄) ∧ Same t t' ∧
      s₄.content.drop s₄.pos.toNat = (bss.drop (i + 1)).flatten ++ x := by
  have hf := flatten_enc hr ts bss hts hb
  subst hf
  have hflat : ∀ l : List (Tag P), (l.map enc).flatten = l.flatMap enc := fun l => by simp [List.flatMap]
  rw [hflat] at hc
  have hc1 : s₁.content = s₀.content := uses_content h1
  have hi : i < os.length := (List.getElem?_eq_some_iff.mp ho).1
  obtain ⟨h4, -⟩ := C99_scan (SeekStream.faultySkip m s₀.content hlen) ts (s := s₁) (x := x) ⟨hc1, by rw [hpos, hc]; rfl⟩ hl
    (by rw [hc, List.length_append] at hlen; omega) h2 hn
  have h5 : (positions 0 ts)[i]? = some o := by
    rw [h4, List.getElem?_take_of_lt hi] at ho
    exact ho
  obtain ⟨a, t, b, rfl, ha⟩ : ∃ a t b, ts = a ++ t :: b ∧ a.length = i :=
    ⟨ts.take i, ts[i], ts.drop (i + 1), by simp, by simp; omega⟩
  rw [positions_split, List.getElem?_append_right (by rw [positions_length]; omega), positions_length, ha, Nat.sub_self,
    Nat.zero_add] at h5
  simp only [positions, List.getElem?_cons_zero, Option.some.injEq] at h5
  have hlen2 : (a.flatMap enc).length < 2 ^ 64 := by
    rw [hc] at hlen
    simp only [List.flatMap_append, List.length_append] at hlen
    omega
  have h6 : o.offset.toNat = (a.flatMap enc).length := by rw [← h5, ofNat_toNat64 hlen2]
  have hc2 : s₂.content = s₀.content := by
    rw [uses_content h3, scanSeq_content h2]; exact hc1
  have h7 : s₃.content = s₀.content ∧ s₃.pos = o.offset := by
    obtain ⟨s', ⟨h8, h9⟩ | ⟨k, h8, -⟩, h10⟩ := seekTo_any o.offset s₂
    · rw [show SeekStream.seekStart o.offset s₂ = _ from h8] at hseek
      cases hseek
      exact ⟨h10.trans hc2, h9⟩
    · rw [show SeekStream.seekStart o.offset s₂ = _ from h8] at hseek
      cases hseek
  have h8 : s₀.content.drop s₃.pos.toNat = enc t ++ (b.flatMap enc ++ x) := by
    rw [h7.2, h6, hc]
    simp only [List.flatMap_append, List.flatMap_cons, List.append_assoc, List.drop_left]
  obtain ⟨k1, k2, k3⟩ := hts t (by simp)
  obtain ⟨t', r', g1, g2, g3⟩ := C31_self_delimiting hr e t k1 k2 k3 (toBytes_eq_enc hr k1 k2 k3) ByteArrayReader.view.toView
    (ByteArrayReader.new (enc t ++ (b.flatMap enc ++ x))) (b.flatMap enc ++ x) (ByteArrayReader.view_new _)
  rcases C97_faults e (SeekStream.faulty m s₀.content hlen) ByteArrayReader.view.toView (s := s₃) ⟨h7.1, h8.symm⟩
    (ByteArrayReader.view_new _) with h | ⟨h9, h10⟩
  · exact .inl h
  · rw [g1] at h9
    obtain ⟨rest, ⟨g4, g5⟩, g6⟩ := h10 (by rw [h9]; rfl)
    rw [g1] at g6
    refine .inr ⟨t, t', _, by rw [← ha]; simp, Prod.ext h9 rfl, g2, ?_⟩
    rw [g4, ← g5, ByteArrayReader.view.toView.unique g6 g3, ← List.map_drop, hflat, ← ha]
    congr 2
    rw [show (a ++ t :: b) = (a ++ [t]) ++ b by simp, show a.length + 1 = (a ++ [t]).length by simp, List.drop_left]

/-- **C99** With the standard factory, strict or not, for tags made of the standard types under their standard ids. -/
theorem C99_standard (hr : MemoryOk) (strict : Bool) (ts : List (Tag P)) (bss : List Bytes)
    (hts : ∀ t ∈ ts, MapsOk t ∧ ∀ u, Within u t → StdTag strict u ∧ (encValue u).length ≤ maxValue)
    (hb : ts.map Tag.toBytes = bss.map .ok) (x : Bytes)
    {s₀ s₁ s₂ s₃ : SeekStream m} (hc : s₀.content = bss.flatten ++ x)
    (hlen : s₀.content.length < 2 ^ 64) (h1 : Uses (Engine.std strict : Engine P) s₀ s₁) (hpos : s₁.pos = 0)
    {os : List RawTagOffset} {sc : RawTagScanner (SeekStream m)} (h2 : ScanSeq m (RawTagScanner.new s₁) os sc)
    (hn : os.length ≤ ts.length) (h3 : Uses (Engine.std strict : Engine P) sc.reader s₂) {i : Nat} {o : RawTagOffset}
    (ho : os[i]? = some o) {p : UInt64} (hseek : SeekStream.seekStart o.offset s₂ = (.ok p, s₃)) :
    (∃ k, (Factory.deserialize (Engine.std strict : Engine P) (SeekStream m) s₃).1 = .err (.ioError k)) ∨
    ∃ t t' s₄, ts[i]? = some t ∧
      Factory.deserialize (Engine.std strict : Engine P) (SeekStream m) s₃ = (.ok t', s₄) ∧ Same t t' ∧
      s₄.content.drop s₄.pos.toNat = (bss.drop (i + 1)).flatten ++ x :=
  C99_lookup hr _ ts bss (fun t ht => ⟨(hts t ht).1, (fun id p hu => by
      rcases ((hts t ht).2 _ hu).1 with h | ⟨-, h, -⟩
      · simp [Tag.kind, Atom.kind, standardId] at h
      · simp [Tag.kind, Atom.kind] at h), std_supported (hts t ht).2⟩) hb x
    (fun t ht => stdTag_layout ((hts t ht).2 t (Within.refl t)).1) hc hlen h1 hpos h2 hn h3 ho hseek

end

/-! ### Non-vacuity -/
section
attribute [local instance] bigEnv

/-- Two tags and a byte that belongs to none; the fourth read and the third seek after the scan fail. -/
def indexed : SeekStream .checked :=
  ⟨deepSample.flatMap enc ++ [255], 0, [.chunk 1, .chunk 1, .chunk 1, .error (.other 5)], [],
    [none, none, none, none, none, none, some (.other 6)]⟩

/-- The scan of both, a failed read behind them, a failed seek and one that succeeds: reading gives the second tag, and
stands at the byte behind it. -/
example : (match RawTagScanner.nextTag .checked (RawTagScanner.new indexed) with
  | (.ok (some o₀), sc) => (match RawTagScanner.nextTag .checked sc with
    | (.ok (some o₁), sc) => (match Factory.deserialize (Engine.std false : Engine Empty) _ sc.reader with
      | (.err (.ioError _), s) => (match SeekStream.seekStart o₁.offset s with
        | (.err _, s) => (match SeekStream.seekStart o₁.offset s with
          | (.ok _, s) => (match Factory.deserialize (Engine.std false : Engine Empty) _ s with
            | (.ok t, s) => decide ([o₀, o₁] = positions 0 deepSample ∧ deepSample[1]?.map enc = some (enc t) ∧
                s.content.drop s.pos.toNat = [255])
            | _ => false)
          | _ => false)
        | _ => false)
      | _ => false)
    | _ => false)
  | _ => false) = true := by
  rw [deserialize_eq]; decide +kernel

/-- The part of a scan that comes before the source fails. -/
example : ScanSeq .checked (RawTagScanner.new (⟨deepSample.flatMap enc, [.chunk 1, .chunk 1, .error (.other 5)]⟩ : ReadReader))
    [⟨1, 0, 1, 1⟩] ⟨2, ⟨(deepSample.drop 1).flatMap enc, [.error (.other 5)]⟩⟩ := by
  refine .cons (s' := ⟨2, ⟨(deepSample.drop 1).flatMap enc, [.error (.other 5)]⟩⟩) ?_ (.nil _)
  decide +kernel

end

end Verif.Props
