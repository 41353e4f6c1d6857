import Verif.Spec.Pack
import Verif.Props.Serialize
import Verif.Props.RoundTrip
import Verif.Proof.Canon
/-!
# C108: filling a buffer with tags
-/
namespace Verif.Props
open Verif Verif.Spec

section
variable {P : Type} [TagPayload P]

theorem take_overwrite (a : Bytes) (off : Nat) (bs : Bytes) (h : off ≤ a.length) :
    (overwrite a off bs).take (off + bs.length) = a.take off ++ bs := by
  unfold overwrite
  rw [List.take_left' (by simp; omega)]

theorem take_overwrite_before (a : Bytes) (off : Nat) (bs : Bytes) (h : off ≤ a.length) :
    (overwrite a off bs).take off = a.take off := by
  unfold overwrite
  rw [List.append_assoc, List.take_left' (by simp; omega)]

/-- **C108** Whatever tags are offered and whatever fails: the tags taken are those that fit, first come first served;
the buffer keeps its length and what was before the start; behind it are the serializations of the tags taken, in order,
up to the offset of the writer. -/
theorem C108_fill (ts : List (Tag P)) (hts : ∀ t ∈ ts, MapsOk t ∧ PayloadsOk t ∧ (enc t).length < 2 ^ 64) (a : Bytes)
    (off : Nat) (ho : off ≤ a.length) :
    (fill ts ⟨a, off⟩).1 = packed (fun t => t.size.toNat) (a.length - off) ts ∧
    (fill ts ⟨a, off⟩).2.array.length = a.length ∧
    (fill ts ⟨a, off⟩).2.array.take (fill ts ⟨a, off⟩).2.offset = a.take off ++ (fill ts ⟨a, off⟩).1.flatMap enc ∧
    (fill ts ⟨a, off⟩).2.offset = off + ((fill ts ⟨a, off⟩).1.flatMap enc).length := by
  induction ts generalizing a off with
  | nil => simp [fill, packed]
  | cons t ts ih =>
    obtain ⟨hm, hp, hl⟩ := hts t (by simp)
    have hsize : t.size.toNat = (enc t).length := by rw [t.size_eq hp hl]; exact lenU64_toNat hl
    obtain ⟨h1, h2⟩ := C68_bounded_buffer t hm hp hl a off ho
    by_cases hf : t.size.toNat ≤ a.length - off
    · have e : fill (t :: ts) ⟨a, off⟩ = (t :: (fill ts ⟨overwrite a off (enc t), off + t.size.toNat⟩).1,
          (fill ts ⟨overwrite a off (enc t), off + t.size.toNat⟩).2) := by
        rw [fill, h1 hf]
      have hlen : (overwrite a off (enc t)).length = a.length := by
        have := overwrite_length a off (enc t) ho; omega
      obtain ⟨i1, i2, i3, i4⟩ := ih (fun u hu => hts u (by simp [hu])) (overwrite a off (enc t)) (off + t.size.toNat)
        (by omega)
      rw [e, packed, if_pos hf]
      refine ⟨?_, i2.trans hlen, ?_, ?_⟩
      · rw [i1, hlen, show a.length - (off + t.size.toNat) = a.length - off - t.size.toNat by omega]
      · rw [i3, hsize, take_overwrite a off _ ho, List.flatMap_cons, List.append_assoc]
      · rw [i4, List.flatMap_cons, List.length_append, hsize]; omega
    · obtain ⟨k, hk, hok, h2⟩ := h2 (by omega)
      have e : fill (t :: ts) ⟨a, off⟩ = fill ts ⟨overwrite a off ((enc t).take k), off⟩ := by
        rw [fill, h2]
        show fill ts (ByteArrayWriter.setOffset _ off) = _
        unfold ByteArrayWriter.setOffset
        have := overwrite_length a off ((enc t).take k) ho
        congr 2
        show min off (overwrite a off ((enc t).take k)).length = off
        omega
      have hlen : (overwrite a off ((enc t).take k)).length = a.length := by
        have := overwrite_length a off ((enc t).take k) ho
        rw [List.length_take] at this
        omega
      obtain ⟨i1, i2, i3, i4⟩ := ih (fun u hu => hts u (by simp [hu])) (overwrite a off ((enc t).take k)) off (by omega)
      rw [e, packed, if_neg hf]
      refine ⟨by rw [i1, hlen], i2.trans hlen, ?_, i4⟩
      rw [i3, take_overwrite_before a off _ ho]

/-- **C108** So the first part of the buffer, up to the offset, is read back as exactly the tags taken. -/
theorem C108_read_back [Env] (hr : MemoryOk) (e : Engine P) (ts : List (Tag P))
    (hts : ∀ t ∈ ts, MapsOk t ∧ PayloadsOk t ∧ Supported e t) (a : Bytes) :
    let r := fill ts (ByteArrayWriter.new a)
    ∃ us s', ReadSeq e (ByteArrayReader.new (r.2.array.take r.2.offset)) us s' ∧ us.length = r.1.length ∧
      (∀ (i : Nat) (h : i < r.1.length) (h' : i < us.length), Same r.1[i] us[i]) ∧ ByteArrayReader.view.R s' [] := by
  intro r
  have hfits : ∀ t ∈ ts, (enc t).length < 2 ^ 64 := fun t ht => by
    have := enc_length_le (hts t ht).2.2
    have : maxValue = 536870912 := rfl
    omega
  obtain ⟨h1, h2, h3, h4⟩ := C108_fill ts (fun t ht => ⟨(hts t ht).1, (hts t ht).2.1, hfits t ht⟩) a 0 (Nat.zero_le _)
  have hsub : ∀ (room : Nat) (ts : List (Tag P)), ∀ t ∈ packed (fun t => t.size.toNat) room ts, t ∈ ts := by
    intro room ts
    induction ts generalizing room with
    | nil => simp [packed]
    | cons u ts ih =>
      intro t ht
      rw [packed] at ht
      split at ht
      · rcases List.mem_cons.mp ht with rfl | ht
        · simp
        · exact List.mem_cons_of_mem _ (ih _ t ht)
      · exact List.mem_cons_of_mem _ (ih _ t ht)
  have hin : ∀ t ∈ r.1, t ∈ ts := fun t ht => hsub _ ts t (h1 ▸ ht)
  have hbytes : r.2.array.take r.2.offset = (r.1.map enc).flatten ++ [] := by
    rw [List.append_nil, ← List.flatMap_def]
    exact h3
  rw [hbytes]
  refine C31_lists hr e r.1 (r.1.map enc) (fun t ht => hts t (hin t ht)) ?_ ByteArrayReader.view.toView _ []
    (ByteArrayReader.view_new _)
  rw [List.map_map]
  refine List.map_congr_left fun t ht => ?_
  obtain ⟨a, b, c⟩ := hts t (hin t ht)
  exact toBytes_eq_enc hr a b c

end

/-- A sequence of 15 bytes, a byte and a boolean. -/
def packTags : List (Tag Empty) :=
  [.seq 22 [.atom (.uint8 3 5), .atom (.uint8 3 6), .atom (.uint64 9 0)], .atom (.uint8 3 7), .atom (.bool 1 true)]

/-- The sequence does not fit in eight bytes, the two others do. -/
example : (∀ t ∈ packTags, MapsOk t ∧ PayloadsOk t ∧ (enc t).length < 2 ^ 64) ∧
    (packed (fun t => t.size.toNat) 8 packTags).length = 2 ∧ (fill packTags (ByteArrayWriter.new (List.replicate 8 0))).2.offset = 4 ∧
    packTags.map (fun t => t.size.toNat) = [15, 2, 2] := by
  refine ⟨?_, by decide +kernel, by decide +kernel, by decide +kernel⟩
  intro t ht
  simp only [packTags, List.mem_cons, List.not_mem_nil, or_false] at ht
  rcases ht with rfl | rfl | rfl <;>
    exact ⟨mapsOk_of_B (by decide), payloadsOk_empty _, by decide +kernel⟩

/-- **C108** Behind the offset the buffer is not blank: what a tag that did not fit left there can be read as a tag
nobody offered, here the first byte of the sequence, so that the reader must be given only the part up to the offset. -/
theorem C108_leftover :
    let r := fill (packTags.take 2) (ByteArrayWriter.new (List.replicate 8 0))
    r.1.map enc = [[3, 7]] ∧ r.2.offset = 2 ∧ enc (.atom (.uint8 3 5) : Tag Empty) <+: r.2.array.drop 2 ∧
      ∀ t ∈ packTags, enc t ≠ enc (.atom (.uint8 3 5) : Tag Empty) := by
  decide +kernel


section
attribute [local instance] bigEnv
example : ∃ us s', ReadSeq (Engine.std true : Engine Empty) (ByteArrayReader.new [3, 7, 1, 1]) us s' ∧ us.length = 2 := by
  obtain ⟨us, s', h1, h2, -⟩ := C108_read_back bigEnv_ok (Engine.std true) packTags (fun t ht =>
    ⟨mapsOk_of_B (by revert t; decide +kernel), sample_payloads t, supported_of_B (by revert t; decide +kernel)⟩) (List.replicate 8 0)
  have h3 : (Verif.Spec.fill packTags (ByteArrayWriter.new (List.replicate 8 0))).2.array.take
    (Verif.Spec.fill packTags (ByteArrayWriter.new (List.replicate 8 0))).2.offset = [3, 7, 1, 1] := by decide +kernel
  have h4 : (Verif.Spec.fill packTags (ByteArrayWriter.new (List.replicate 8 0))).1.length = 2 := by decide +kernel
  rw [h3] at h1
  exact ⟨us, s', h1, h2.trans h4⟩

end

end Verif.Props
