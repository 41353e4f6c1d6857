import Verif.Proof.Data
import Verif.Proof.Codec
import Verif.Proof.Views
import Verif.Model.Tag
/-!
# C25 - C27: fixed-width values, strings, tag classes
-/
namespace Verif.Props
open Verif Spec

/-! ### C25 -/

theorem codec_word {α : Type} (width : Nat) (bits : α → Nat) (of : Bytes → α)
    (write : ∀ (ω : Type) [Writer ω], α → Act IoErr ω Unit) (read : ∀ (σ : Type) [Reader σ], Act IoErr σ α)
    (hlt : ∀ v, bits v < 256 ^ width)
    (hof : ∀ v, of (be width (bits v)) = v)
    (hbits : ∀ bs : Bytes, bs.length = width → bits (of bs) = beVal bs)
    (hw : ∀ (ω : Type) [Writer ω] v, write ω v = Writer.writeAll (be width (bits v)))
    (hr : ∀ (σ : Type) [Reader σ], read σ = (do let t ← Reader.readAll width; pure (of t))) :
    BigEndianCodec width bits write read where
  bits_lt := hlt
  bits_inj v w h := by rw [← hof v, h, hof]
  write_exact ω _ S w pre v h := by
    rw [hw]
    exact S.writeAll_ok _ h
  read_exact σ _ V s v rest h := by
    obtain ⟨s', h1, h2⟩ := V.readAll_ok (n := width) h (by simp)
    rw [List.take_left' (by simp)] at h1
    rw [List.drop_left' (by simp)] at h2
    refine ⟨s', ?_, h2⟩
    rw [hr, Act.bind_ok h1, hof]
    rfl
  read_any σ _ V s bs h hl := by
    obtain ⟨s', h1, h2⟩ := V.readAll_ok (n := width) h hl
    refine ⟨of (bs.take width), s', ?_, h2, ?_⟩
    · rw [hr, Act.bind_ok h1]; rfl
    · rw [hbits _ (by simp; omega)]
      have := be_beVal (bs.take width)
      rwa [show (bs.take width).length = width by simp; omega] at this
  read_short σ _ V s bs h hl := by
    obtain ⟨e, s', h1, h2⟩ := V.readAll_short (n := width) h hl
    exact ⟨e, s', by rw [hr, Act.bind_err h1], h2⟩

theorem codec_byte {α : Type} (bits : α → Nat) (of : Byte → α) (to : α → Byte)
    (write : ∀ (ω : Type) [Writer ω], α → Act IoErr ω Unit) (read : ∀ (σ : Type) [Reader σ], Act IoErr σ α)
    (hto : ∀ v, bits v = (to v).toNat) (hof : ∀ v, of (to v) = v) (hof' : ∀ b, to (of b) = b)
    (hw : ∀ (ω : Type) [Writer ω] v, write ω v = Writer.write (to v))
    (hr : ∀ (σ : Type) [Reader σ], read σ = (do let t ← Reader.read; pure (of t))) :
    BigEndianCodec 1 bits write read := by
  have hb : ∀ v, be 1 (bits v) = [to v] := by intro v; simp [be, hto]
  exact {
    bits_lt := fun v => by rw [hto]; exact (to v).toNat_lt
    bits_inj := fun v w h => by
      rw [hto, hto] at h
      rw [← hof v, UInt8.toNat_inj.mp h, hof]
    write_exact := fun ω _ S w pre v h => by
      rw [hw, hb]
      exact S.write_ok _ h
    read_exact := fun σ _ V s v rest h => by
      rw [hb] at h
      obtain ⟨s', h1, h2⟩ := V.read_cons h
      refine ⟨s', ?_, h2⟩
      rw [hr, Act.bind_ok h1, hof]
      rfl
    read_any := fun σ _ V s bs h hl => by
      match bs, hl, h with
      | b :: bs, hl, h =>
        obtain ⟨s', h1, h2⟩ := V.read_cons h
        refine ⟨of b, s', ?_, h2, ?_⟩
        · rw [hr, Act.bind_ok h1]; rfl
        · rw [hb, hof']; rfl
    read_short := fun σ _ V s bs h hl => by
      match bs, hl, h with
      | [], hl, h =>
        obtain ⟨e, s', h1, h2⟩ := V.read_nil h
        exact ⟨e, s', by rw [hr, Act.bind_err h1], h2⟩ }

/-- C25, unsigned integers: `write_uN` writes the `N/8` big-endian digits of the value and `read_uN` inverts it, on
every writer and well-behaved reader, in both directions, with an error on short input. -/
theorem C25_unsigned :
    BigEndianCodec 1 UInt8.toNat (fun ω _ => Data.writeU8 (ω := ω)) (fun σ _ => Data.readU8 (σ := σ)) ∧
    BigEndianCodec 2 UInt16.toNat (fun ω _ => Data.writeU16 (ω := ω)) (fun σ _ => Data.readU16 (σ := σ)) ∧
    BigEndianCodec 4 UInt32.toNat (fun ω _ => Data.writeU32 (ω := ω)) (fun σ _ => Data.readU32 (σ := σ)) ∧
    BigEndianCodec 8 UInt64.toNat (fun ω _ => Data.writeU64 (ω := ω)) (fun σ _ => Data.readU64 (σ := σ)) := by
  refine ⟨codec_byte _ id id _ _ (fun _ => rfl) (fun _ => rfl) (fun _ => rfl) (fun _ _ _ => rfl) fun σ _ => ?_,
    codec_word 2 _ (fun t => UInt16.ofNat (fromBE t)) _ _ (fun v => v.toNat_lt) (fun v => ?_) (fun bs h => ?_)
      (fun ω _ v => ?_) (fun _ _ => rfl),
    codec_word 4 _ (fun t => UInt32.ofNat (fromBE t)) _ _ (fun v => v.toNat_lt) (fun v => ?_) (fun bs h => ?_)
      (fun ω _ v => ?_) (fun _ _ => rfl),
    codec_word 8 _ (fun t => UInt64.ofNat (fromBE t)) _ _ (fun v => v.toNat_lt) (fun v => ?_) (fun bs h => ?_)
      (fun ω _ v => ?_) (fun _ _ => rfl)⟩
  · exact (Act.bind_pure _).symm
  all_goals first
    | (rw [fromBE_eq_beVal, beVal_be, Nat.mod_eq_of_lt v.toNat_lt]; simp; done)
    | (have := beVal_lt bs
       rw [h] at this
       simp [fromBE_eq_beVal]; omega)
    | (rw [← toBE_eq_be]; rfl)

/-- C25, signed integers: the same with two's complement representation. -/
theorem C25_signed :
    BigEndianCodec 1 (fun v : Int8 => twos 1 v.toInt) (fun ω _ => Data.writeI8 (ω := ω))
      (fun σ _ => Data.readI8 (σ := σ)) ∧
    BigEndianCodec 2 (fun v : Int16 => twos 2 v.toInt) (fun ω _ => Data.writeI16 (ω := ω))
      (fun σ _ => Data.readI16 (σ := σ)) ∧
    BigEndianCodec 4 (fun v : Int32 => twos 4 v.toInt) (fun ω _ => Data.writeI32 (ω := ω))
      (fun σ _ => Data.readI32 (σ := σ)) ∧
    BigEndianCodec 8 (fun v : Int64 => twos 8 v.toInt) (fun ω _ => Data.writeI64 (ω := ω))
      (fun σ _ => Data.readI64 (σ := σ)) := by
  refine ⟨codec_byte _ UInt8.toInt8 Int8.toUInt8 _ _ (fun v => (twos_int8 v).symm) (fun _ => rfl) (fun _ => rfl)
      (fun _ _ _ => rfl) fun σ _ => rfl,
    codec_word 2 _ (fun t => (UInt16.ofNat (fromBE t)).toInt16) _ _ (fun v => ?_) (fun v => ?_)
      (fun bs h => ?_) (fun ω _ v => ?_) (fun _ _ => rfl),
    codec_word 4 _ (fun t => (UInt32.ofNat (fromBE t)).toInt32) _ _ (fun v => ?_) (fun v => ?_)
      (fun bs h => ?_) (fun ω _ v => ?_) (fun _ _ => rfl),
    codec_word 8 _ (fun t => (UInt64.ofNat (fromBE t)).toInt64) _ _ (fun v => ?_) (fun v => ?_)
      (fun bs h => ?_) (fun ω _ v => ?_) (fun _ _ => rfl)⟩
  · rw [← twos_int16]; exact v.toUInt16.toNat_lt
  · rw [← twos_int16, fromBE_eq_beVal, beVal_be, Nat.mod_eq_of_lt v.toUInt16.toNat_lt]; simp
  · rw [← twos_int16]; have := beVal_lt bs
    rw [h] at this
    simp [fromBE_eq_beVal]; omega
  · rw [← twos_int16, ← toBE_eq_be]; rfl
  · rw [← twos_int32]; exact v.toUInt32.toNat_lt
  · rw [← twos_int32, fromBE_eq_beVal, beVal_be, Nat.mod_eq_of_lt v.toUInt32.toNat_lt]; simp
  · rw [← twos_int32]; have := beVal_lt bs
    rw [h] at this
    simp [fromBE_eq_beVal]; omega
  · rw [← twos_int32, ← toBE_eq_be]; rfl
  · rw [← twos_int64]; exact v.toUInt64.toNat_lt
  · rw [← twos_int64, fromBE_eq_beVal, beVal_be, Nat.mod_eq_of_lt v.toUInt64.toNat_lt]; simp
  · rw [← twos_int64]; have := beVal_lt bs
    rw [h] at this
    simp [fromBE_eq_beVal]; omega
  · rw [← twos_int64, ← toBE_eq_be]; rfl

/-- C25, floats: the same on the bit pattern of the float. -/
theorem C25_floats :
    BigEndianCodec 4 UInt32.toNat (fun ω _ => Data.writeF32 (ω := ω)) (fun σ _ => Data.readF32 (σ := σ)) ∧
    BigEndianCodec 8 UInt64.toNat (fun ω _ => Data.writeF64 (ω := ω)) (fun σ _ => Data.readF64 (σ := σ)) :=
  ⟨C25_unsigned.2.2.1, C25_unsigned.2.2.2⟩

example : be 2 (twos 2 (-2 : Int16).toInt) = [0xFF, 0xFE] ∧
    (Data.readI16 (ByteArrayReader.new [0xFF, 0xFE, 7])).1 = .ok (-2) ∧
    (Data.readI16 (ByteArrayReader.new [0xFF])).1 = .err .unableToReadData := by decide +kernel

/-! ### C26 -/

/-- C26: with the next `n` bytes available, `read_string(n)` returns a string exactly when they are its UTF-8
encoding, and takes them; it fails with `CorruptedData` exactly when they are no string's encoding. -/
theorem C26_read_string [Env] {σ : Type} [Reader σ] (V : View σ) (s : σ) (bs : Bytes) (n : Nat) (hR : V.R s bs)
    (hn : n ≤ bs.length) (ha : n ≤ Env.allocMax) :
    (∀ str, Spec.utf8 str = bs.take n → ∃ s', Data.readString n s = (.ok str, s') ∧ V.R s' (bs.drop n)) ∧
    ((∀ str, Spec.utf8 str ≠ bs.take n) →
      ∃ s', Data.readString n s = (.err .corruptedData, s') ∧ V.R s' (bs.drop n)) := by
  obtain ⟨s', h1, h2⟩ := V.readAll_ok (n := n) hR hn
  have h0 : (Data.readString n s : Res IoErr String × σ)
      = (match fromUtf8 (bs.take n) with
        | some s => pure s
        | none => Act.fail .corruptedData : Act IoErr σ String) s' := by
    simp only [Data.readString, Data.alloc, Nat.one_mul, ha, if_true, Act.pure_bind]
    rw [Act.bind_ok h1]
    cases fromUtf8 (bs.take n) <;> rfl
  rw [h0]
  constructor
  · intro str hs
    rw [fromUtf8_eq_some.mpr (by rw [utf8_eq]; exact hs)]
    exact ⟨s', rfl, h2⟩
  · intro hs
    rw [fromUtf8_eq_none.mpr (fun s => by rw [utf8_eq]; exact hs s)]
    exact ⟨s', rfl, h2⟩

/-- C26: with fewer bytes `read_string(n)` fails with an error of the reader. -/
theorem C26_read_string_short [Env] {σ : Type} [Reader σ] (V : View σ) (s : σ) (bs : Bytes) (n : Nat) (hR : V.R s bs)
    (hn : bs.length < n) (ha : n ≤ Env.allocMax) : ∃ e s', Data.readString n s = (.err e, s') ∧ V.E e := by
  obtain ⟨e, s', h1, h2⟩ := V.readAll_short (n := n) hR hn
  refine ⟨e, s', ?_, h2⟩
  simp only [Data.readString, Data.alloc, Nat.one_mul, ha, if_true, Act.pure_bind]
  rw [Act.bind_err h1]

/-- C26: `write_string` appends the UTF-8 encoding, and distinct strings have distinct encodings. -/
theorem C26_write_string {ω : Type} [Writer ω] (S : Sink ω) (w : ω) (pre : Bytes) (str : String) (h : S.W w pre) :
    (∃ w', Data.writeString str w = (.ok (), w') ∧ S.W w' (pre ++ Spec.utf8 str)) ∧
    ∀ str', Spec.utf8 str' = Spec.utf8 str → str' = str := by
  refine ⟨?_, fun str' h => utf8_inj (by rw [utf8_eq, utf8_eq, h])⟩
  unfold Data.writeString
  rw [utf8_eq]
  exact S.writeAll_ok _ h

/-- C26: what `write_string` writes, `read_string` reads back, whatever follows it. -/
theorem C26_round_trip [Env] {σ : Type} [Reader σ] (V : View σ) (s : σ) (str : String) (rest : Bytes)
    (hR : V.R s (Spec.utf8 str ++ rest)) (ha : (Spec.utf8 str).length ≤ Env.allocMax) :
    ∃ s', Data.readString (Spec.utf8 str).length s = (.ok str, s') ∧ V.R s' rest := by
  obtain ⟨s', h, h'⟩ := (C26_read_string V s _ _ hR (by simp) ha).1 str (by simp)
  exact ⟨s', h, by simpa using h'⟩

example : Spec.utf8 "aé€𝄞" = [0x61, 0xC3, 0xA9, 0xE2, 0x82, 0xAC, 0xF0, 0x9D, 0x84, 0x9E] := by decide +kernel
/-- An overlong encoding and a lone surrogate are rejected. -/
example : let _ : Env := ⟨100⟩
    (Data.readString 2 (ByteArrayReader.new [0xC0, 0x80])).1 = .err .corruptedData ∧
    (Data.readString 3 (ByteArrayReader.new [0xED, 0xA0, 0x80])).1 = .err .corruptedData ∧
    (Data.readString 2 (ByteArrayReader.new [0xC3, 0xA9, 1])).1 = .ok "é" := by decide +kernel

/-! ### C27 -/

/-- C27: implicit means at most 15, reserved means at most 31; declared sizes are accepted exactly up to 512 MiB. -/
theorem C27_classes (id : UInt64) :
    (isImplicitTag id = true ↔ id.toNat ≤ 15) ∧ (isReservedTag id = true ↔ id.toNat ≤ 31) := by
  simp [isImplicitTag, isReservedTag, UInt64.le_iff_toNat_le]

/-- C27: declared sizes are accepted exactly up to 512 MiB, and returned unchanged. -/
theorem C27_tag_size (size : UInt64) :
    (size.toNat ≤ 512 * 2 ^ 20 → tagSizeToUsize size = .ok size.toNat) ∧
    (512 * 2 ^ 20 < size.toNat → tagSizeToUsize size = .err .tagTooLarge) := by
  unfold tagSizeToUsize maxTagSize
  constructor
  · intro h; rw [if_neg (by omega)]
  · intro h; rw [if_pos (by omega)]

example : tagSizeToUsize 536870912 = .ok 536870912 ∧ tagSizeToUsize 536870913 = .err .tagTooLarge ∧
    isImplicitTag 15 = true ∧ isImplicitTag 16 = false ∧ isReservedTag 31 = true ∧ isReservedTag 32 = false := by
  decide +kernel

end Verif.Props
