import Verif.Props.RoundTrip
import Verif.Props.Streams
import Verif.Props.Memory
import Verif.Proof.Deliver
import Verif.Spec.Journal
/-!
# C93: tags written one after another and cut anywhere
-/
namespace Verif.Props
open Verif Verif.Spec
variable {P : Type}
set_option linter.unusedSectionVars false

section
variable [TagPayload P] [Env]

/-- Nothing at all is not a tag. -/
theorem read_at_end (e : Engine P) {σ : Type} [Reader σ] (V : View σ) (s : σ) (hR : V.R s []) :
    ∃ i s', Factory.deserialize e σ s = (.err (.ioError i), s') := by
  have h := deserialize_matches e V hR
  have hn : Parser.top e [] = .short := by
    rw [top_eq]
    rfl
  rw [hn] at h
  obtain ⟨i, s', h, -⟩ := h
  exact ⟨i, s', h⟩

/-- Cut inside a tag: an i/o error. -/
theorem read_cut (hr : MemoryOk) (e : Engine P) (t : Tag P) (hm : MapsOk t) (hs : Supported e t) {σ : Type} [Reader σ]
    (V : View σ) (s : σ) (k : Nat) (hk : k < (enc t).length) (hR : V.R s ((enc t).take k)) :
    ∃ i s', Factory.deserialize e σ s = (.err (.ioError i), s') := by
  have h := deserialize_matches e V hR
  have ht := top_enc hr e t hm hs []
  rw [List.append_nil, ← List.take_append_drop k (enc t)] at ht
  rw [short_of_prefix (Local.top e) ht (by simp; omega)] at h
  obtain ⟨i, s', h, -⟩ := h
  exact ⟨i, s', h⟩

/-- **C93** Tags written one after another, the data cut after `k` bytes: exactly the tags that are whole are read
back, in order; then the reader holds what is left of the next one (nothing, if the cut is between two tags), and the
next call returns an i/o error. -/
theorem C93_cut (hr : MemoryOk) (e : Engine P) (ts : List (Tag P)) (bss : List Bytes)
    (hts : ∀ t ∈ ts, MapsOk t ∧ PayloadsOk t ∧ Supported e t) (hb : ts.map Tag.toBytes = bss.map .ok) (k : Nat)
    {σ : Type} [Reader σ] (V : View σ) (s : σ) (hR : V.R s (bss.flatten.take k)) :
    ∃ us s' rest, ReadSeq e s us s' ∧ V.R s' rest ∧
      us.length ≤ ts.length ∧ (∀ (i : Nat) (h : i < ts.length) (h' : i < us.length), Same ts[i] us[i]) ∧
      (bss.take us.length).flatten ++ rest = bss.flatten.take k ∧
      (∀ h : us.length < bss.length, rest.length < bss[us.length].length ∧ rest <+: bss[us.length]) ∧
      ∃ i s'', Factory.deserialize e σ s' = (.err (.ioError i), s'') := by
  induction ts generalizing bss s k with
  | nil =>
    cases bss with
    | nil =>
      simp only [List.flatten_nil, List.take_nil] at hR
      exact ⟨[], s, [], .nil s, hR, Nat.le_refl _, fun i h => absurd h (by simp), by simp,
        fun h => absurd h (by simp), read_at_end e V s hR⟩
    | cons => simp at hb
  | cons t ts ih =>
    cases bss with
    | nil => simp at hb
    | cons bs bss =>
      simp only [List.map_cons, List.cons.injEq] at hb
      obtain ⟨hm, hp, hs⟩ := hts t (by simp)
      rw [List.flatten_cons] at hR
      by_cases hk : bs.length ≤ k
      · rw [List.take_append, List.take_of_length_le hk] at hR
        obtain ⟨t', s₁, h1, h2, h3⟩ := C31_self_delimiting hr e t hm hp hs hb.1 V s _ hR
        obtain ⟨us, s', rest, h4, h5, h6, h7, h8, h9, h10⟩ :=
          ih bss (fun t ht => hts t (by simp [ht])) hb.2 (k - bs.length) s₁ h3
        refine ⟨t' :: us, s', rest, .cons h1 h4, h5, by simpa using h6, fun i h h' => ?_, ?_, ?_, h10⟩
        · cases i with
          | zero => simpa using h2
          | succ i => simpa using h7 i (by simpa using h) (by simpa using h')
        · rw [List.flatten_cons, List.take_append, List.take_of_length_le hk, ← h8]
          simp
        · intro h
          simpa using h9 (by simpa using h)
      · have hb1 : bs = enc t := by
          have := hb.1
          rw [toBytes_eq_enc hr hm hp hs, Res.ok.injEq] at this
          exact this.symm
        rw [List.take_append, show k - bs.length = 0 by omega, List.take_zero, List.append_nil] at hR
        refine ⟨[], s, bs.take k, .nil s, hR, by simp, fun i _ h => absurd h (by simp), ?_, fun _ => ?_, ?_⟩
        · rw [List.flatten_cons, List.take_append, show k - bs.length = 0 by omega]
          simp
        · simp only [List.length_nil, List.getElem_cons_zero, List.length_take]
          exact ⟨by omega, List.take_prefix _ _⟩
        · subst hb1
          exact read_cut hr e t hm hs V s k (by omega) hR

/-! ### Writers that fail -/

theorem journal_succeed {ω : Type} [Writer ω] (J : Journal ω) {ops : List WOp} {w w' : ω} (h : Succeed ops w w')
    (hw : J.ok w) : J.ok w' ∧ J.out w' = J.out w ++ opsBytes ops := by
  induction h with
  | nil w => exact ⟨hw, by simp [opsBytes]⟩
  | cons h1 _ ih =>
    obtain ⟨h2, got, -, h3, h4⟩ := J.step _ _ hw
    rw [h1] at h2 h3 h4
    obtain ⟨h5, h6⟩ := ih h2
    refine ⟨h5, ?_⟩
    rw [h6, h3, h4 rfl, List.append_assoc]
    simp [opsBytes]

/-- What one `serialize` leaves behind. -/
theorem journal_serialize {ω : Type} [Writer ω] (J : Journal ω) (t : Tag P) (hm : MapsOk t) (hp : PayloadsOk t)
    (hl : (enc t).length < 2 ^ 64) (w : ω) (hw : J.ok w) :
    J.ok (t.serialize w).2 ∧ ∃ got, got <+: enc t ∧ J.out (t.serialize w).2 = J.out w ++ got ∧
      ((t.serialize w).1 = .ok () → got = enc t) := by
  obtain ⟨ops, ho, h⟩ := C69_stops_at_first_error t hm hp hl
  rcases h ω w with ⟨w', h1, h2⟩ | ⟨done, op, rest, w₁, h1, h2, h3, h4⟩
  · rw [h2]
    obtain ⟨h5, h6⟩ := journal_succeed J h1 hw
    exact ⟨h5, enc t, List.prefix_rfl, by rw [h6, ho], fun _ => rfl⟩
  · rw [h4]
    obtain ⟨h5, h6⟩ := journal_succeed J h2 hw
    obtain ⟨h7, got, ⟨x, hx⟩, h8, h9⟩ := J.step op w₁ h5
    refine ⟨h7, opsBytes done ++ got, ⟨x ++ opsBytes rest, ?_⟩, ?_, ?_⟩
    · rw [← ho, h1]
      simp only [opsBytes, List.flatMap_append, List.flatMap_cons, ← hx, List.append_assoc]
    · simp only [h8, h6, List.append_assoc]
    · intro hok
      cases hc : (call op w₁).1 with
      | ok u => exact absurd hc h3
      | err x => rw [hc] at hok; simp [Res.mapErr] at hok
      | panic => rw [hc] at hok; simp [Res.mapErr] at hok
      | diverge => rw [hc] at hok; simp [Res.mapErr] at hok

/-- What a sequence of `serialize` calls leaves behind: the encodings of the tags reported as written, and at most a
part (possibly all) of the next one. -/
theorem journal_append {ω : Type} [Writer ω] (J : Journal ω) (ts : List (Tag P))
    (hts : ∀ t ∈ ts, MapsOk t ∧ PayloadsOk t ∧ (enc t).length < 2 ^ 64) (w : ω) (hw : J.ok w) :
    ∃ got, J.out (appendTags ts w).2 = J.out w ++ ((ts.take (appendTags ts w).1).map enc).flatten ++ got ∧
      (appendTags ts w).1 ≤ ts.length ∧
      ((appendTags ts w).1 = ts.length → got = []) ∧
      ∀ h : (appendTags ts w).1 < ts.length, got <+: enc ts[(appendTags ts w).1] := by
  induction ts generalizing w with
  | nil => exact ⟨[], by simp [appendTags], Nat.le_refl _, fun _ => rfl, fun h => absurd h (by simp)⟩
  | cons t ts ih =>
    obtain ⟨hm, hp, hl⟩ := hts t (by simp)
    obtain ⟨h1, got, h2, h3, h4⟩ := journal_serialize J t hm hp hl w hw
    rcases heq : t.serialize w with ⟨r, w₁⟩
    rw [heq] at h1 h3 h4
    cases r with
    | ok u =>
      cases u
      have h4 := h4 rfl
      subst h4
      simp only [appendTags, heq]
      obtain ⟨got', h5, h6, h7, h8⟩ := ih (fun t ht => hts t (by simp [ht])) w₁ h1
      refine ⟨got', ?_, by simpa using h6, by simpa using h7, fun h => ?_⟩
      · simp only [h5, h3, List.take_succ_cons, List.map_cons, List.flatten_cons, List.append_assoc]
      · simpa using h8 (by simpa using h)
    | _ =>
      simp only [appendTags, heq]
      exact ⟨got, by simpa using h3, by simp, by simp, fun _ => by simpa using h2⟩

theorem flatten_take_succ (bss : List Bytes) (i : Nat) (h : i < bss.length) :
    (bss.take (i + 1)).flatten.length = (bss.take i).flatten.length + bss[i].length := by
  rw [List.take_add_one, List.getElem?_eq_getElem h, List.flatten_append, List.length_append]
  simp

theorem flatten_take_mono (bss : List Bytes) {i j : Nat} (h : i ≤ j) :
    (bss.take i).flatten.length ≤ (bss.take j).flatten.length := by
  have : bss.take i = (bss.take j).take i := by rw [List.take_take, Nat.min_eq_left h]
  rw [this]
  conv => rhs; rw [← List.take_append_drop i (bss.take j), List.flatten_append, List.length_append]
  omega

/-- **C93** Tags are serialized one after another to a writer that may fail at any call, after part of its data, until
one `serialize` fails.  Whoever reads what arrived gets every tag that was reported as written, at most one more (the
one whose `serialize` failed, if all of it arrived nevertheless), each with the content it had; then an i/o error.
Never a tag that was not written. -/
theorem C93_recovery (hr : MemoryOk) (e : Engine P) {ω : Type} [Writer ω] (J : Journal ω) (ts : List (Tag P))
    (hts : ∀ t ∈ ts, MapsOk t ∧ PayloadsOk t ∧ Supported e t) (w : ω) (hw : J.ok w) {σ : Type} [Reader σ] (V : View σ)
    (s : σ) (hR : V.R s ((J.out (appendTags ts w).2).drop (J.out w).length)) :
    ∃ us s', ReadSeq e s us s' ∧ (appendTags ts w).1 ≤ us.length ∧ us.length ≤ (appendTags ts w).1 + 1 ∧
      us.length ≤ ts.length ∧ (∀ (i : Nat) (h : i < ts.length) (h' : i < us.length), Same ts[i] us[i]) ∧
      ∃ i s'', Factory.deserialize e σ s' = (.err (.ioError i), s'') := by
  have h64 : ∀ t ∈ ts, (enc t).length < 2 ^ 64 := by
    intro t ht
    have := enc_length_le (hts t ht).2.2
    have : maxValue = 536870912 := rfl
    omega
  obtain ⟨got, h1, h2, h3, h4⟩ := journal_append J ts (fun t ht => ⟨(hts t ht).1, (hts t ht).2.1, h64 t ht⟩) w hw
  generalize appendTags ts w = q at *
  obtain ⟨a, w'⟩ := q
  simp only at *
  rw [h1, List.append_assoc, List.drop_left] at hR
  obtain ⟨bss, hb⟩ : ∃ bss, bss = ts.map enc := ⟨_, rfl⟩
  have hb' : ts.map Tag.toBytes = bss.map .ok := by
    rw [hb, List.map_map]
    refine List.map_congr_left fun t ht => ?_
    obtain ⟨hm, hp, hs⟩ := hts t ht
    exact toBytes_eq_enc hr hm hp hs
  have hlen : bss.length = ts.length := by rw [hb, List.length_map]
  have hpre : ((ts.take a).map enc).flatten ++ got <+: bss.flatten := by
    rcases Nat.lt_or_ge a ts.length with h | h
    · obtain ⟨x, hx⟩ := h4 h
      refine ⟨x ++ (bss.drop (a + 1)).flatten, ?_⟩
      have hd : bss = bss.take a ++ bss[a] :: bss.drop (a + 1) := by
        rw [List.getElem_cons_drop, List.take_append_drop]
      conv => rhs; rw [hd]
      rw [List.flatten_append, List.flatten_cons]
      simp only [hb, List.getElem_map, ← hx, List.append_assoc, List.map_take]
    · rw [h3 (by omega), List.append_nil, List.take_of_length_le h, hb]
      exact List.prefix_rfl
  rw [List.prefix_iff_eq_take] at hpre
  rw [hpre] at hR
  obtain ⟨us, s', rest, g1, g2, g3, g4, g5, g6, g7⟩ := C93_cut hr e ts bss hts hb' _ V s hR
  rw [← hpre] at g5
  refine ⟨us, s', g1, ?_, ?_, g3, g4, g7⟩
  · refine Nat.le_of_not_lt fun hlt => ?_
    have g8 := (g6 (by omega)).1
    have g9 := congrArg List.length g5
    have g10 := flatten_take_succ bss us.length (by omega)
    have g11 := flatten_take_mono bss (show us.length + 1 ≤ a by omega)
    rw [List.map_take, ← hb] at g9
    simp only [List.length_append] at g9
    omega
  · refine Nat.le_of_not_lt fun hlt => ?_
    have g8 := (h4 (by omega)).length_le
    have g9 := congrArg List.length g5
    have g10 := flatten_take_succ bss a (by omega)
    have g11 := flatten_take_succ bss (a + 1) (by omega)
    have g12 := flatten_take_mono bss (show a + 1 + 1 ≤ us.length by omega)
    rw [List.map_take, ← hb] at g9
    have g13 : bss[a].length = (enc ts[a]).length := by simp only [hb, List.getElem_map]
    have g14 : 0 < bss[a + 1].length := by
      simp only [hb, List.getElem_map, enc, wrap_length]
      have := ilint_pos ts[a + 1].id.toNat
      omega
    simp only [List.length_append] at g9
    omega

/-- **C93** The error does not tell a cut from a proper end: a reader over a byte array reports `EndOfData` when nothing
is left, and the same when the data ends between the id and the size of a tag.  (What tells them apart is whether
anything was left before the last call, see `C93_cut`.) -/
theorem C93_end_not_told (e : Engine P) (id : Byte) (h : 16 ≤ id.toNat ∧ id.toNat < 248) :
    (Factory.deserialize e ByteArrayReader (ByteArrayReader.new [])).1 = .err (.ioError .endOfData) ∧
    (Factory.deserialize e ByteArrayReader (ByteArrayReader.new [id])).1 = .err (.ioError .endOfData) := by
  rw [deserialize_eq]
  refine ⟨rfl, ?_⟩
  have h0 : ILInt.decodedSize id = 1 := by
    unfold ILInt.decodedSize
    rw [if_pos]
    exact UInt8.lt_iff_toNat_lt.mpr h.2
  have h1 : (Ser.deserializeILInt : Act TagErr ByteArrayReader UInt64) (ByteArrayReader.new [id]) =
      (.ok id.toUInt64, ⟨[id], 1⟩) := by
    have : (ILInt.decode : Act ILIntErr ByteArrayReader UInt64) (ByteArrayReader.new [id]) =
        (.ok id.toUInt64, ⟨[id], 1⟩) := by
      unfold ILInt.decode
      rw [Act.bind_ok (show (Act.mapErr ILIntErr.ioError (Reader.read : Act IoErr ByteArrayReader Byte)) (ByteArrayReader.new [id]) =
        (.ok id, ⟨[id], 1⟩) from rfl)]
      simp only [h0, if_true]
      rfl
    simp only [Ser.deserializeILInt, tagIo, Data.readILInt, Act.mapErr, this, Res.mapErr]
  have h2 : isImplicitTag id.toUInt64 = false := by
    simp only [isImplicitTag, decide_eq_false_iff_not, UInt64.le_iff_toNat_le]
    have h3 : id.toUInt64.toNat = id.toNat := by simp
    have h4 : (0x0F : UInt64).toNat = 15 := rfl
    omega
  rw [Act.bind_ok h1]
  unfold Factory.deserializeTagSize
  rw [h2]
  rfl

end

/-! ### Such writers -/

/-- `WriteWriter` over any `std::io::Write`. -/
def WriteWriter.journal : Journal WriteWriter where
  ok _ := True
  out := WriteWriter.out
  step op w _ := by
    refine ⟨trivial, ?_⟩
    have h : call op w = Writer.writeAll (opBytes op) w := by
      cases op with
      | byte b => exact (C22_history w).1 b
      | all bs => rfl
    rw [h]
    obtain ⟨got, w', h1, h2, ⟨h3, h4, -⟩ | ⟨h3, -, -⟩ | ⟨x, h3, -, -⟩⟩ := C22_write_all w (opBytes op)
    · rw [h3]; exact ⟨got, h1, h2, fun _ => h4⟩
    · rw [h3]; exact ⟨got, h1, h2, fun h => by simp at h⟩
    · rw [h3]; exact ⟨got, h1, h2, fun h => by simp at h⟩

/-- `ByteArrayWriter` over a buffer of any size, from any position. -/
def ByteArrayWriter.journal : Journal ByteArrayWriter where
  ok w := w.offset ≤ w.array.length
  out w := w.array.take w.offset
  step op w hw := by
    have key : ∀ o : WriteOp, o.data = opBytes op → writeStep (fun n w => ByteArrayWriter.setOffset w n) (fun _ w => w) w o = call op w →
        File.stepFixed (arrayFile w) o = (if w.offset + (opBytes op).length ≤ w.array.length then
          (.ok (), ⟨overwrite w.array w.offset (opBytes op), w.offset + (opBytes op).length, false⟩)
          else (.err .unableToWriteData, arrayFile w)) →
        (call op w).2.offset ≤ (call op w).2.array.length ∧ ∃ got, got <+: opBytes op ∧
          (call op w).2.array.take (call op w).2.offset = w.array.take w.offset ++ got ∧
          ((call op w).1 = .ok () → got = opBytes op) := by
      intro o hd hs hf
      have h := C17_ByteArrayWriter_is_fixed_file w hw [o]
      simp only [runHist, hs, List.cons.injEq, and_true] at h
      obtain ⟨h1, h2, h3, h4⟩ := h
      rw [hf] at h1 h2
      refine ⟨h3, ?_⟩
      generalize call op w = q at *
      obtain ⟨r, w'⟩ := q
      simp only at *
      split at h1
      · next hl =>
        rw [if_pos hl] at h2
        simp only [arrayFile, File.mk.injEq] at h2
        refine ⟨_, List.prefix_rfl, ?_, fun _ => rfl⟩
        rw [h2.1, h2.2.1]
        simp only [overwrite]
        rw [List.take_append_of_le_length (by simp; omega), List.take_of_length_le (by simp; omega)]
      · next hl =>
        rw [if_neg hl] at h2
        simp only [arrayFile, File.mk.injEq] at h2
        refine ⟨[], List.nil_prefix, ?_, fun h => ?_⟩
        · rw [h2.1, h2.2.1, List.append_nil]
        · rw [h1] at h; simp at h
    cases op with
    | byte b => exact key (.write b) rfl rfl rfl
    | all bs => exact key (.writeAll bs) rfl rfl rfl

section examples
attribute [local instance] bigEnv

theorem samples_ok (n : Nat) : ∀ t ∈ List.replicate n sample, MapsOk t ∧ PayloadsOk t ∧ Supported sampleEngine t := by
  intro t ht
  rw [List.mem_replicate] at ht
  rw [ht.2]
  exact ⟨sample_maps, sample_payloads _, sample_supported⟩

/-- Three samples, cut inside the second: one is read back. -/
example : ∃ us s', ReadSeq sampleEngine (ByteArrayReader.new ((List.replicate 3 (enc sample)).flatten.take ((enc sample).length + 5))) us s' ∧
    us.length = 1 := by
  have hb : (List.replicate 3 sample).map Tag.toBytes = (List.replicate 3 (enc sample)).map .ok := by
    have : sample.toBytes = .ok (enc sample) := toBytes_eq_enc bigEnv_ok sample_maps (sample_payloads _) sample_supported
    simp [this]
  obtain ⟨us, s', rest, h1, -, h2, -, h3, h4, -⟩ := C93_cut bigEnv_ok sampleEngine _ _ (samples_ok 3) hb
    ((enc sample).length + 5) ByteArrayReader.view.toView _ (ByteArrayReader.view_new _)
  refine ⟨us, s', h1, ?_⟩
  have h5 := congrArg List.length h3
  simp only [List.length_replicate] at h2 h4
  generalize us.length = m at *
  match m with
  | 0 =>
    have h6 := (h4 (by omega)).1
    simp [List.replicate_succ] at h5 h6
    omega
  | 1 => rfl
  | 2 => simp [List.replicate_succ, sample_len] at h5; omega
  | 3 => simp [List.replicate_succ, sample_len] at h5; omega
  | m + 4 => omega

/-- Any number of samples over any destination. -/
example (n : Nat) (w : WriteWriter) : ∃ us s',
    ReadSeq sampleEngine (ByteArrayReader.new ((appendTags (List.replicate n sample) w).2.out.drop w.out.length)) us s' ∧
    (appendTags (List.replicate n sample) w).1 ≤ us.length ∧ us.length ≤ (appendTags (List.replicate n sample) w).1 + 1 := by
  obtain ⟨us, s', h1, h2, h3, -⟩ := C93_recovery bigEnv_ok sampleEngine WriteWriter.journal _ (samples_ok n) w trivial
    ByteArrayReader.view.toView _ (ByteArrayReader.view_new _)
  exact ⟨us, s', h1, h2, h3⟩

/-- The extra tag: the destination fails at the last call, which carries no data, so `serialize` reports a failure
although the whole tag has arrived. -/
example :
    (appendTags [(.atom (.raw 300 []) : Tag Empty)] (⟨[], [.accept 9, .accept 9, .error (.other 5)]⟩ : WriteWriter)).1 = 0 ∧
    (match Factory.fromBytes (Engine.std false : Engine Empty)
        (appendTags [(.atom (.raw 300 []) : Tag Empty)] (⟨[], [.accept 9, .accept 9, .error (.other 5)]⟩ : WriteWriter)).2.out with
      | .ok (.atom (.raw 300 [])) => true
      | _ => false) = true := by
  simp only [Factory.fromBytes]
  rw [deserialize_eq]
  decide +kernel

end examples

end Verif.Props
