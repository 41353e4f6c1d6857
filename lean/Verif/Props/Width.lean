import Verif.Model.Width
import Verif.Props.Readers
import Verif.Props.Scanner
/-!
# C85: platforms whose `usize` is not 64 bits wide
-/
namespace Verif.Props
open Verif Verif.Spec
variable {P : Type} (m : ArithMode)

/-- Where the tag ends, in plain numbers. -/
def lastByte (o : RawTagOffset) : Nat := o.offset.toNat + o.headerSize.toNat + o.valueSize.toNat

theorem offsets_ok {o : RawTagOffset} (h : lastByte o < 2 ^ 64) :
    o.valueOffset m = .ok (o.offset + o.headerSize) ∧ (o.offset + o.headerSize).toNat = o.offset.toNat + o.headerSize.toNat ∧
    o.nextTagOffset m = .ok (o.offset + (o.headerSize + o.valueSize)) ∧
    (o.offset + (o.headerSize + o.valueSize)).toNat = lastByte o := by
  unfold lastByte at h ⊢
  have hs : o.size m = .ok (o.headerSize + o.valueSize) := by
    unfold RawTagOffset.size; exact addU64_ok (by omega)
  have h2 : (o.headerSize + o.valueSize).toNat = o.headerSize.toNat + o.valueSize.toNat := by
    rw [UInt64.toNat_add]; omega
  refine ⟨by unfold RawTagOffset.valueOffset; exact addU64_ok (by omega), by rw [UInt64.toNat_add]; omega, ?_, ?_⟩
  · unfold RawTagOffset.nextTagOffset
    rw [hs]
    exact addU64_ok (by omega)
  · rw [UInt64.toNat_add, h2]; omega

/-- What the slices are on a platform of any width: start and end are reduced modulo 2^bits. -/
theorem slices_width {o : RawTagOffset} (h : lastByte o < 2 ^ 64) (bits : Nat) (raw : Bytes) :
    Width.tagSlice bits m o raw = RawTagOffset.slice raw (o.offset.toNat % 2 ^ bits) (lastByte o % 2 ^ bits) ∧
    Width.valueSlice bits m o raw =
      RawTagOffset.slice raw ((o.offset.toNat + o.headerSize.toNat) % 2 ^ bits) (lastByte o % 2 ^ bits) := by
  obtain ⟨h1, h2, h3, h4⟩ := offsets_ok m h
  constructor
  · unfold Width.tagSlice Width.tagEnd Width.valueEnd
    rw [h3, ← h4]; rfl
  · unfold Width.valueSlice Width.valueStart Width.valueEnd
    rw [h1, h3, ← h4, ← h2]; rfl

/-- **C85** On a platform of any width, a tag that lies in the data (which fits in the address space) is sliced out
exactly, with no panic, whatever the overflow checks. -/
theorem C85_in_range (bits : Nat) (hb : bits ≤ 64) (o : RawTagOffset) (before header value after : Bytes)
    (hr : (before ++ header ++ value ++ after).length < 2 ^ bits)
    (h1 : o.offset.toNat = before.length) (h2 : o.headerSize.toNat = header.length)
    (h3 : o.valueSize.toNat = value.length) :
    Width.tagSlice bits m o (before ++ header ++ value ++ after) = .ok (header ++ value) ∧
    Width.valueSlice bits m o (before ++ header ++ value ++ after) = .ok value := by
  have hp : (2 : Nat) ^ bits ≤ 2 ^ 64 := Nat.pow_le_pow_right (by decide) hb
  simp only [List.length_append] at hr
  have hl : lastByte o = before.length + header.length + value.length := by unfold lastByte; omega
  obtain ⟨e1, e2⟩ := slices_width m (o := o) (by omega) bits (before ++ header ++ value ++ after)
  rw [e1, e2, hl, h1, h2, Nat.mod_eq_of_lt (by omega), Nat.mod_eq_of_lt (by omega), Nat.mod_eq_of_lt (by omega)]
  constructor
  · have := slice_mid before (header ++ value) after
    simpa only [List.append_assoc, List.length_append, Nat.add_assoc] using this
  · have := slice_mid (before ++ header) value after
    simpa only [List.append_assoc, List.length_append, Nat.add_assoc] using this

example : Width.tagSlice 32 .checked ⟨22, 2, 2, 3⟩ [9, 9, 22, 3, 1, 2, 3, 8] = .ok [22, 3, 1, 2, 3] ∧
    Width.valueSlice 16 .wrapping ⟨22, 2, 2, 3⟩ [9, 9, 22, 3, 1, 2, 3, 8] = .ok [1, 2, 3] := by decide +kernel

/-- **C85** With a 64-bit `usize` a tag that ends beyond the data is never sliced: both calls panic. -/
theorem C85_out_of_range (o : RawTagOffset) (raw : Bytes) (h : lastByte o < 2 ^ 64) (hr : raw.length < lastByte o) :
    Width.tagSlice 64 m o raw = .panic ∧ Width.valueSlice 64 m o raw = .panic := by
  obtain ⟨e1, e2⟩ := slices_width m h 64 raw
  rw [e1, e2, Nat.mod_eq_of_lt (a := lastByte o) h]
  unfold RawTagOffset.slice
  rw [if_neg (by omega), if_neg (by omega)]
  exact ⟨rfl, rfl⟩

example : Width.tagSlice 64 .checked ⟨22, 2 ^ 32, 2, 3⟩ [22, 3, 1, 2, 3] = .panic := by decide +kernel

/-- **C85** With a narrower `usize` it is not so: a tag 2^bits bytes further on is taken to lie in the data, and its slices
are the bytes of whatever is there. -/
theorem C85_truncated (bits : Nat) (hb : bits < 64) (o : RawTagOffset) (raw : Bytes)
    (h : lastByte o + 2 ^ bits < 2 ^ 64) :
    let far : RawTagOffset := { o with offset := UInt64.ofNat (o.offset.toNat + 2 ^ bits) }
    raw.length < 2 ^ bits → raw.length < lastByte far ∧
    Width.tagSlice bits m far raw = Width.tagSlice bits m o raw ∧
    Width.valueSlice bits m far raw = Width.valueSlice bits m o raw := by
  intro far hr
  have ho : far.offset.toNat = o.offset.toNat + 2 ^ bits := by
    show (UInt64.ofNat (o.offset.toNat + 2 ^ bits)).toNat = _
    rw [UInt64.toNat_ofNat', Nat.mod_eq_of_lt]
    unfold lastByte at h; omega
  have hl : lastByte far = lastByte o + 2 ^ bits := by unfold lastByte at *; rw [ho]; show _ + o.headerSize.toNat + o.valueSize.toNat = _; omega
  obtain ⟨e1, e2⟩ := slices_width m (o := o) (by omega) bits raw
  obtain ⟨f1, f2⟩ := slices_width m (o := far) (by omega) bits raw
  have hm (a : Nat) : (a + 2 ^ bits) % 2 ^ bits = a % 2 ^ bits := Nat.add_mod_right a _
  refine ⟨by omega, ?_, ?_⟩
  · rw [e1, f1, hl, ho, hm, hm]
  · rw [e2, f2, hl, ho, hm, show far.headerSize.toNat = o.headerSize.toNat from rfl,
      show o.offset.toNat + 2 ^ bits + o.headerSize.toNat = o.offset.toNat + o.headerSize.toNat + 2 ^ bits by omega, hm]

/-- With a 32-bit `usize`: the tag at 4 GiB, of five bytes of data. -/
example : Width.valueSlice 32 .checked ⟨22, 2 ^ 32, 2, 3⟩ [22, 3, 1, 2, 3] = .ok [1, 2, 3] := by decide +kernel

/-- **C85** The sizes accepted by the factory are exact numbers wherever `usize` has at least 30 bits; with 16 bits they
are not. -/
theorem C85_sizes :
    (∀ bits, 30 ≤ bits → ∀ size, Width.tagSizeToUsize bits size = tagSizeToUsize size) ∧
    (∃ size, Width.tagSizeToUsize 16 size = .ok 3 ∧ tagSizeToUsize size = .ok 65539) := by
  refine ⟨fun bits hb size => ?_, 65539, by decide, by decide⟩
  unfold Width.tagSizeToUsize tagSizeToUsize
  by_cases h : size.toNat > maxTagSize
  · rw [if_pos h, if_pos h]
  · rw [if_neg h, if_neg h]
    have hp : (2 : Nat) ^ 30 ≤ 2 ^ bits := Nat.pow_le_pow_right (by decide) hb
    have : maxTagSize < 2 ^ 30 := by decide
    unfold Width.asUsize
    rw [Nat.mod_eq_of_lt (by omega)]

/-- **C85** Where no allocation can reach 2^31 bytes (any 32-bit platform) 11 bytes, the header of an array of ILInts that
declares 2^28 of them, make the factory panic. -/
theorem C85_capacity [TagPayload P] [Env] (strict : Bool) (hm : Env.allocMax < 2 ^ 31) :
    Factory.fromBytes (Engine.std strict : Engine P) [20, 251, 0x0F, 0xFF, 0xFF, 0x08, 251, 0x0F, 0xFF, 0xFF, 0x08] =
      .panic := by
  have h := (C63_ilint_buffer (P := P) strict 268435456 (by decide) (by decide)).2.2 (by omega)
  rwa [show Spec.ilint 20 ++ Spec.ilint 268435456 ++ Spec.ilint 268435456 =
    [20, 251, 0x0F, 0xFF, 0xFF, 0x08, 251, 0x0F, 0xFF, 0xFF, 0x08] by decide +kernel] at h

end Verif.Props
