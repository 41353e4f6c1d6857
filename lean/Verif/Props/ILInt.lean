import Verif.Proof.Codec
import Verif.Proof.Views
import Verif.Proof.Zigzag
import Verif.Proof.Order
/-!
# Properties C01–C10: the ILInt codec
-/
namespace Verif.Props
open Spec

/-- **C01** Whatever is already in the writer and whatever follows in the stream, the bytes `encode` writes for `v`
decode to `v`, consuming exactly those bytes. -/
theorem C01_round_trip (v : UInt64) :
    ∃ enc : Bytes,
      (∀ (ω : Type) [Writer ω] (S : Sink ω) (w : ω) (pre : Bytes), S.W w pre →
        ∃ w', ILInt.encode v w = (.ok (), w') ∧ S.W w' (pre ++ enc)) ∧
      (∀ (σ : Type) [Reader σ] (V : View σ) (s : σ) (rest : Bytes), V.R s (enc ++ rest) →
        ∃ s', ILInt.decode s = (.ok v, s') ∧ V.R s' rest) ∧
      (∀ rest : Bytes, ILInt.decodeFromBytes (enc ++ rest) = .ok (v, enc.length)) := by
  have hf : ∀ rest : Bytes, ILInt.decodeFromBytes (ilint v.toNat ++ rest) = .ok (v, (ilint v.toNat).length) := by
    intro rest
    rw [ILInt.decodeFromBytes_isILInt (ILInt.isILInt_ilint v.toNat_lt)]
    simp
  refine ⟨ilint v.toNat, fun ω _ S w pre h => ILInt.encode_sink S v h, ?_, hf⟩
  intro σ _ V s rest hR
  obtain ⟨s', hd, hR'⟩ := (ILInt.decode_view V hR).1 _ _ (hf rest)
  exact ⟨s', hd, by simpa using hR'⟩

/-- The concrete writer and reader: 300 is written as `F8 34` and read back in front of another byte. -/
example : ILInt.encode 300 VecWriter.new = (.ok (), ⟨[0xF8, 0x34], 2, false⟩) ∧
    ILInt.decode (ByteArrayReader.new [0xF8, 0x34, 7]) = (.ok 300, ⟨[0xF8, 0x34, 7], 2⟩) := by decide +kernel
/-- A writer and a reader that meet the hypotheses. -/
example : VecWriter.sink.W VecWriter.new [] ∧ ByteArrayReader.view.R (ByteArrayReader.new [0xF8, 0x34, 7]) [0xF8, 0x34, 7] :=
  ⟨VecWriter.sink_new, ByteArrayReader.view_new _⟩

/-- **C02** `encoded_size` is the number of bytes written, between 1 and 9, and `decoded_size` of the first byte
written is the same number. -/
theorem C02_encoded_size (v : UInt64) :
    1 ≤ ILInt.encodedSize v ∧ ILInt.encodedSize v ≤ 9 ∧
    ∃ w : VecWriter, ILInt.encode v VecWriter.new = (.ok (), w) ∧ w.vector.length = ILInt.encodedSize v ∧
      ∃ h rest, w.vector = h :: rest ∧ ILInt.decodedSize h = ILInt.encodedSize v := by
  have h8 := ILInt.ilintExtra_le v.toNat
  have hs := ILInt.encodedSize_eq v
  refine ⟨by omega, by omega, ?_⟩
  obtain ⟨w, he, -, -, hW⟩ := ILInt.encode_sink VecWriter.sink v VecWriter.sink_new
  simp only [List.nil_append] at hW
  refine ⟨w, he, by rw [hW, ILInt.encodedSize_eq_length], ?_⟩
  rw [hW]
  by_cases h : v.toNat < 248
  · refine ⟨_, _, ilint_lt_248 h, ?_⟩
    rw [ILInt.decodedSize_eq, hs, ILInt.ilintExtra_eq_zero.mpr h]
    simp; omega
  · have h0 : ilintExtra v.toNat ≠ 0 := fun hc => h (ILInt.ilintExtra_eq_zero.mp hc)
    refine ⟨UInt8.ofNat (247 + ilintExtra v.toNat), be (ilintExtra v.toNat) (v.toNat - 248), by simp [ilint, h], ?_⟩
    rw [ILInt.decodedSize_eq, hs, UInt8.toNat_ofNat', Nat.mod_eq_of_lt (by omega), if_neg (by omega)]
    omega

example : ILInt.encodedSize 0xFFFFFFFFFFFFFFFF = 9 ∧ ILInt.encodedSize 247 = 1 ∧ ILInt.encodedSize 248 = 2 := by
  decide +kernel

/-- **C03** The bytes written: `[v]` below 248; otherwise a header `0xF8 + (n - 1)` and `v - 248` in `n` big-endian
bytes, where `n` is the least positive number of bytes that can hold `v - 248`. -/
theorem C03_minimal_form (v : UInt64) (w : VecWriter) (h : (ILInt.encode v VecWriter.new) = (.ok (), w)) :
    (v.toNat < 248 → w.vector = [UInt8.ofNat v.toNat]) ∧
    (248 ≤ v.toNat → ∃ n, 1 ≤ n ∧ n ≤ 8 ∧ v.toNat - 248 < 256 ^ n ∧
      (∀ k, 1 ≤ k → v.toNat - 248 < 256 ^ k → n ≤ k) ∧
      ∃ body : Bytes, body.length = n ∧ beVal body = v.toNat - 248 ∧
        w.vector = UInt8.ofNat (0xF8 + (n - 1)) :: body) := by
  obtain ⟨w', he, -, -, hW⟩ := ILInt.encode_sink VecWriter.sink v VecWriter.sink_new
  rw [h] at he
  simp at he
  subst he
  simp only [List.nil_append] at hW
  rw [hW]
  refine ⟨fun h => ilint_lt_248 h, fun h => ?_⟩
  have hv := v.toNat_lt
  obtain ⟨h1, h2, h3⟩ := ILInt.ilintExtra_spec h hv
  refine ⟨ilintExtra v.toNat, h2, ILInt.ilintExtra_le _, h1, ?_, be (ilintExtra v.toNat) (v.toNat - 248), by simp, ?_, ?_⟩
  · intro k hk hlt
    apply Nat.le_of_not_lt
    intro hc
    have h4 := h3 (by omega)
    have h5 : 256 ^ k ≤ 256 ^ (ilintExtra v.toNat - 1) := Nat.pow_le_pow_right (by decide) (by omega)
    exact absurd (Nat.lt_of_lt_of_le hlt h5) (Nat.not_lt.mpr h4)
  · rw [beVal_be, Nat.mod_eq_of_lt h1]
  · have : ¬ v.toNat < 248 := by omega
    simp only [ilint, this, if_false]
    rw [show 0xF8 + (ilintExtra v.toNat - 1) = 247 + ilintExtra v.toNat by omega]

example : ILInt.encode 0x12345 VecWriter.new = (.ok (), ⟨[0xFA, 0x01, 0x22, 0x4D], 4, false⟩) := by decide +kernel

/-- **C04** `decode_from_bytes` on every byte string: which inputs are accepted and with what result, and which error
is reported otherwise; there is no other outcome. -/
theorem C04_slice_decoder (bs : Bytes) :
    (∀ v n, ILInt.decodeFromBytes bs = .ok (v, n) ↔
      (n ≤ bs.length ∧ IsILInt (bs.take n) v.toNat)) ∧
    (ILInt.decodeFromBytes bs = .err .valueOverflow ↔
      ∃ (h : Byte) (body rest : Bytes), bs = h :: (body ++ rest) ∧ 248 ≤ h.toNat ∧ body.length = h.toNat - 247 ∧
        2 ^ 64 ≤ 248 + beVal body) ∧
    (ILInt.decodeFromBytes bs = .err .invalidFormat ↔
      bs = [] ∨ ∃ (h : Byte) (rest : Bytes), bs = h :: rest ∧ 248 ≤ h.toNat ∧ rest.length < h.toNat - 247) ∧
    ((∃ v n, ILInt.decodeFromBytes bs = .ok (v, n)) ∨ ILInt.decodeFromBytes bs = .err .valueOverflow ∨
      ILInt.decodeFromBytes bs = .err .invalidFormat) := by
  refine ⟨fun v n => ⟨fun h => ?_, fun ⟨hn, hi⟩ => ?_⟩, ?_, ?_, ILInt.decodeFromBytes_cases bs⟩
  · obtain ⟨h1, h2, -⟩ := ILInt.decodeFromBytes_ok h
    exact ⟨h2, h1⟩
  · have := ILInt.decodeFromBytes_isILInt hi (bs.drop n)
    rw [List.take_append_drop] at this
    rw [this]
    simp [hn]
  · cases bs with
    | nil => simp [ILInt.decodeFromBytes]
    | cons h rest =>
      have hl := h.toNat_lt
      rw [ILInt.decodeFromBytes_cons]
      constructor
      · intro he
        split at he
        · simp at he
        · split at he
          · simp at he
          · split at he
            · simp at he
            · rename_i h1 h2 h3
              refine ⟨h, rest.take (h.toNat - 247), rest.drop (h.toNat - 247), by simp, by omega, ?_, by omega⟩
              rw [List.length_take]; omega
      · rintro ⟨h', body, rest', heq, h1, h2, h3⟩
        obtain ⟨rfl, rfl⟩ := List.cons_eq_cons.mp heq
        rw [if_neg (by omega), if_neg (by rw [List.length_append]; omega), ← h2, List.take_left, if_neg (by omega)]
  · cases bs with
    | nil => simp [ILInt.decodeFromBytes]
    | cons h rest =>
      have hl := h.toNat_lt
      rw [ILInt.decodeFromBytes_cons]
      constructor
      · intro he
        split at he
        · simp at he
        · split at he
          · exact .inr ⟨h, rest, rfl, by omega, by omega⟩
          · split at he <;> simp at he
      · rintro (heq | ⟨h', rest', heq, h1, h2⟩)
        · simp at heq
        · obtain ⟨rfl, rfl⟩ := List.cons_eq_cons.mp heq
          rw [if_neg (by omega), if_pos h2]

example : ILInt.decodeFromBytes [0xFF, 0xFF, 0xFF, 0xFF, 0xFF, 0xFF, 0xFF, 0xFF, 0x08] = .err .valueOverflow ∧
    ILInt.decodeFromBytes [0xFF, 0xFF, 0xFF, 0xFF, 0xFF, 0xFF, 0xFF, 0xFF, 0x07] = .ok (0xFFFFFFFFFFFFFFFF, 9) ∧
    ILInt.decodeFromBytes [0xF9, 0x01] = .err .invalidFormat ∧
    ILInt.decodeFromBytes [0xF9, 0x01, 0x02, 3] = .ok (506, 3) := by decide +kernel

/-- **C05** On every well-behaved reader, `decode` does what `decode_from_bytes` does on the bytes the reader holds:
the same value and number of bytes consumed, an overflow where there is an overflow, and a reader error exactly where
`decode_from_bytes` says `InvalidFormat`. -/
theorem C05_decoders_agree {σ : Type} [Reader σ] (V : View σ) (s : σ) (bs : Bytes) (hR : V.R s bs) :
    match ILInt.decodeFromBytes bs with
    | .ok (v, n) => ∃ s', ILInt.decode s = (.ok v, s') ∧ V.R s' (bs.drop n)
    | .err .invalidFormat => ∃ e s', ILInt.decode s = (.err (.ioError e), s') ∧ V.E e
    | .err x => ∃ s', ILInt.decode s = (.err x, s')
    | .panic => False
    | .diverge => False := by
  obtain ⟨h1, h2, h3⟩ := ILInt.decode_view V hR
  rcases ILInt.decodeFromBytes_cases bs with ⟨v, n, h⟩ | h | h
  · rw [h]; exact h1 v n h
  · rw [h]; exact h2 h
  · rw [h]; exact h3 h

example : ReadReader.viewE.R ⟨[0xF8, 1, 9], [.chunk 1, .error .interrupted]⟩ [0xF8, 1, 9] ∧
    ILInt.decode (⟨[0xF8, 1, 9], [.chunk 1, .error .interrupted]⟩ : ReadReader) = (.ok 249, ⟨[9], []⟩) := by
  refine ⟨⟨rfl, ?_⟩, by decide +kernel⟩
  intro ev hev
  simp at hev
  rcases hev with rfl | rfl
  · exact .inl ⟨1, rfl, by omega⟩
  · exact .inr rfl

/-- The bytes `encode` hands to an in-memory writer. -/
def encoded (v : UInt64) : Bytes := (ILInt.encode v VecWriter.new).2.vector

theorem encoded_eq (v : UInt64) : encoded v = ilint v.toNat := by
  obtain ⟨w', he, -, -, hW⟩ := ILInt.encode_sink VecWriter.sink v VecWriter.sink_new
  simp [encoded, he, hW]

/-- **C06** No encoding is a prefix of another one's encoding, and a concatenation of encodings splits in only one
way (even when it is only known to be followed by something). -/
theorem C06_prefix_free :
    (∀ v w : UInt64, encoded v <+: encoded w → v = w) ∧
    (∀ vs ws : List UInt64, (vs.map encoded).flatten = (ws.map encoded).flatten → vs = ws) ∧
    (∀ (v w : UInt64) (r r' : Bytes), encoded v ++ r = encoded w ++ r' → v = w ∧ r = r') := by
  have key : ∀ (v w : UInt64) (r r' : Bytes), encoded v ++ r = encoded w ++ r' → v = w ∧ r = r' := by
    intro v w r r' h
    rw [encoded_eq, encoded_eq] at h
    have h1 := ILInt.decodeFromBytes_isILInt (ILInt.isILInt_ilint v.toNat_lt) r
    have h2 := ILInt.decodeFromBytes_isILInt (ILInt.isILInt_ilint w.toNat_lt) r'
    rw [h] at h1
    rw [h1] at h2
    simp at h2
    obtain ⟨rfl, -⟩ := h2
    exact ⟨rfl, List.append_cancel_left h⟩
  have hne : ∀ v : UInt64, encoded v ≠ [] := by
    intro v h
    have := congrArg List.length h
    rw [encoded_eq, ILInt.length_ilint] at this
    simp at this
  refine ⟨fun v w ⟨t, ht⟩ => (key v w t [] (by simpa using ht)).1, ?_, key⟩
  intro vs
  induction vs with
  | nil =>
    intro ws h
    cases ws with
    | nil => rfl
    | cons w ws => simp [hne] at h
  | cons v vs ih =>
    intro ws h
    cases ws with
    | nil => simp [hne] at h
    | cons w ws =>
      simp only [List.map_cons, List.flatten_cons] at h
      obtain ⟨rfl, h2⟩ := key _ _ _ _ h
      rw [ih ws h2]

example : encoded 300 = [0xF8, 0x34] ∧ encoded 247 = [0xF7] ∧ encoded 248 = [0xF8, 0] := by decide +kernel

/-- **C07** Sizes and lexicographic order of the encodings follow the order of the values. -/
theorem C07_monotone (v w : UInt64) :
    (v ≤ w → ILInt.encodedSize v ≤ ILInt.encodedSize w) ∧ (v < w ↔ encoded v < encoded w) := by
  constructor
  · intro h
    rw [ILInt.encodedSize_eq, ILInt.encodedSize_eq]
    have := ilintExtra_mono (UInt64.le_iff_toNat_le.mp h) w.toNat_lt
    omega
  · rw [encoded_eq, encoded_eq, ilint_lt_iff v.toNat_lt w.toNat_lt, UInt64.lt_iff_toNat_lt]

/-- Around the points at which the size changes. -/
example : ILInt.encodedSize 247 = 1 ∧ ILInt.encodedSize 248 = 2 ∧ ILInt.encodedSize 503 = 2 ∧ ILInt.encodedSize 504 = 3 ∧
    ILInt.encodedSize 0xFFFFFFFFFFFFFFFF = 9 := by decide +kernel
example : encoded 247 = [247] ∧ encoded 248 = [248, 0] ∧ encoded 503 = [248, 255] ∧ encoded 504 = [249, 1, 0] ∧
    encoded 247 < encoded 248 ∧ encoded 503 < encoded 504 := by decide +kernel

/-- **C08** The sign mapping is the zigzag code, and the two directions are inverse of each other. -/
theorem C08_zigzag :
    (∀ v : Int64, ((ILInt.encodeSign v).toNat : Int) = if 0 ≤ v.toInt then 2 * v.toInt else -2 * v.toInt - 1) ∧
    (∀ v : Int64, ILInt.decodeSign (ILInt.encodeSign v) = v) ∧
    (∀ u : UInt64, ILInt.encodeSign (ILInt.decodeSign u) = u) := by
  refine ⟨fun v => ?_, ILInt.decodeSign_encodeSign, ILInt.encodeSign_decodeSign⟩
  rw [ILInt.encodeSign_eq]
  unfold zigzag
  split <;> omega

example : ILInt.encodeSign (-1) = 1 ∧ ILInt.encodeSign (Int64.minValue) = 0xFFFFFFFFFFFFFFFF ∧
    ILInt.encodeSign 1 = 2 := by decide +kernel

/-- **C09** Signed values round trip, taking exactly `signed_encoded_size` bytes, and a smaller magnitude never takes
more bytes. -/
theorem C09_signed_round_trip (v : Int64) :
    (∃ enc : Bytes, enc.length = ILInt.signedEncodedSize v ∧
      (∀ (ω : Type) [Writer ω] (S : Sink ω) (w : ω) (pre : Bytes), S.W w pre →
        ∃ w', ILInt.signedEncode v w = (.ok (), w') ∧ S.W w' (pre ++ enc)) ∧
      (∀ (σ : Type) [Reader σ] (V : View σ) (s : σ) (rest : Bytes), V.R s (enc ++ rest) →
        ∃ s', ILInt.signedDecode s = (.ok v, s') ∧ V.R s' rest)) ∧
    (∀ w : Int64, v.toInt.natAbs < w.toInt.natAbs →
      ILInt.signedEncodedSize v ≤ ILInt.signedEncodedSize w) := by
  constructor
  · refine ⟨ilint (ILInt.encodeSign v).toNat, by rw [ILInt.signedEncodedSize, ILInt.encodedSize_eq_length], ?_, ?_⟩
    · intro ω _ S w pre h
      exact ILInt.encode_sink S _ h
    · intro σ _ V s rest hR
      have hf := ILInt.decodeFromBytes_isILInt (ILInt.isILInt_ilint (ILInt.encodeSign v).toNat_lt) rest
      obtain ⟨s', hd, hR'⟩ := (ILInt.decode_view V hR).1 _ _ hf
      refine ⟨s', ?_, by simpa using hR'⟩
      unfold ILInt.signedDecode
      rw [Act.bind_ok hd]
      simp [pure, Act.pure, ILInt.decodeSign_encodeSign]
  · intro w h
    unfold ILInt.signedEncodedSize
    apply (C07_monotone _ _).1
    rw [UInt64.le_iff_toNat_le, ILInt.encodeSign_eq, ILInt.encodeSign_eq]
    unfold zigzag
    split <;> split <;> omega

example : ILInt.signedEncodedSize (-124) = 1 ∧ ILInt.signedEncodedSize (-125) = 2 ∧
    ILInt.signedDecode (ByteArrayReader.new [0xF8, 1]) = (.ok (-125), ⟨[0xF8, 1], 2⟩) := by decide +kernel

/-- **C10** Exactly the byte strings accepted as `v`: the single byte below 248; otherwise, for each `k` in 1..8 that
can hold `v - 248`, the header `247 + k` with the zero-padded `k`-byte form. -/
theorem C10_accepted_forms (v : UInt64) (bs : Bytes) :
    ILInt.decodeFromBytes bs = .ok (v, bs.length) ↔
      (v.toNat < 248 ∧ bs = [UInt8.ofNat v.toNat]) ∨
      (248 ≤ v.toNat ∧ ∃ k, 1 ≤ k ∧ k ≤ 8 ∧ v.toNat - 248 < 256 ^ k ∧
        bs = UInt8.ofNat (247 + k) :: be k (v.toNat - 248)) := by
  have hiff := (C04_slice_decoder bs).1 v bs.length
  rw [hiff, List.take_length]
  simp only [Nat.le_refl, true_and]
  constructor
  · rintro ⟨hv, ⟨b, rfl, hb, he⟩ | ⟨h, body, rfl, h1, h8, hh, he⟩⟩
    · left; rw [he]; exact ⟨hb, by simp⟩
    · right
      have hlt := beVal_lt body
      have he2 : v.toNat - 248 = beVal body := by omega
      refine ⟨by omega, body.length, h1, h8, by rw [he2]; exact hlt, ?_⟩
      rw [he2, be_beVal, ← hh]; simp
  · rintro (⟨hv, rfl⟩ | ⟨hv, k, h1, h8, hlt, rfl⟩)
    · exact ⟨by omega, .inl ⟨_, rfl, by simp; omega, by simp; omega⟩⟩
    · refine ⟨v.toNat_lt, .inr ⟨_, _, rfl, by simpa using h1, by simpa using h8, by simp; omega, ?_⟩⟩
      rw [beVal_be, Nat.mod_eq_of_lt hlt]; omega

/-- **C10** The accepted form is unique exactly when it is the only one: for every `v < 248` and every
`v ≥ 248 + 256^7`. -/
theorem C10_unique_iff (v : UInt64) :
    (∀ bs bs' : Bytes, ILInt.decodeFromBytes bs = .ok (v, bs.length) → ILInt.decodeFromBytes bs' = .ok (v, bs'.length) →
      bs = bs') ↔ (v.toNat < 248 ∨ 248 + 256 ^ 7 ≤ v.toNat) := by
  have hv := v.toNat_lt
  constructor
  · intro h
    rcases Nat.lt_or_ge v.toNat 248 with h1 | h1
    · exact .inl h1
    · right
      apply Nat.le_of_not_lt
      intro h2
      have a7 := (C10_accepted_forms v (UInt8.ofNat (247 + 7) :: be 7 (v.toNat - 248))).mpr
        (.inr ⟨h1, 7, by omega, by omega, by omega, rfl⟩)
      have a8 := (C10_accepted_forms v (UInt8.ofNat (247 + 8) :: be 8 (v.toNat - 248))).mpr
        (.inr ⟨h1, 8, by omega, by omega, by omega, rfl⟩)
      have := congrArg List.length (h _ _ a7 a8)
      simp at this
  · intro h bs bs' h1 h2
    rw [C10_accepted_forms] at h1 h2
    rcases h1 with ⟨a, rfl⟩ | ⟨a, k, k1, k8, klt, rfl⟩ <;> rcases h2 with ⟨b, rfl⟩ | ⟨b, j, j1, j8, jlt, rfl⟩
    · rfl
    · omega
    · omega
    · have big : ∀ k, k ≤ 8 → v.toNat - 248 < 256 ^ k → k = 8 := by
        intro k hk hlt
        apply Nat.le_antisymm hk
        apply Nat.le_of_not_lt
        intro hc
        have : 256 ^ k ≤ 256 ^ 7 := Nat.pow_le_pow_right (by decide) (by omega)
        have h7 : 248 + 256 ^ 7 ≤ v.toNat := by omega
        omega
      rw [big k k8 klt, big j j8 jlt]

/-- Witness: 248 has eight accepted forms, of which `F8 00` and `F9 00 00` are two. -/
example : ILInt.decodeFromBytes [0xF8, 0] = .ok (248, 2) ∧ ILInt.decodeFromBytes [0xF9, 0, 0] = .ok (248, 3) := by
  decide +kernel

end Verif.Props
