import Verif.Proof.ILInt
import Verif.Spec.Reader
import Verif.Spec.Writer
import Verif.Model.Array
/-!
# Facts about the ILInt encoder and decoders on readers and writers
-/
namespace Verif
open Spec

theorem ilint_lt_248 {v : Nat} (h : v < 248) : ilint v = [UInt8.ofNat v] := by simp [ilint, h]

namespace ILInt

theorem encode_eq {ω : Type} [Writer ω] (v : UInt64) (w : ω) :
    encode v w = if v.toNat < 248 then ((Writer.write v.toUInt8).mapErr ILIntErr.ioError) w
      else ((Writer.writeAll (ilint v.toNat)).mapErr ILIntErr.ioError) w := by
  unfold encode
  have hb := bytes_eq v
  unfold bytes at hb
  rw [encodedSize_eq] at hb ⊢
  by_cases h : v.toNat < 248
  · have h0 := ilintExtra_eq_zero.mpr h
    simp only [h0, if_true, h]
  · have h0 : ilintExtra v.toNat ≠ 0 := fun hc => h (ilintExtra_eq_zero.mp hc)
    have h1 : ¬ (1 + ilintExtra v.toNat = 1) := by omega
    simp only [h1, if_false, h] at hb ⊢
    rw [hb]

theorem encode_sink {ω : Type} [Writer ω] (S : Sink ω) {w : ω} {pre : Bytes} (v : UInt64) (h : S.W w pre) :
    ∃ w', encode v w = (.ok (), w') ∧ S.W w' (pre ++ ilint v.toNat) := by
  rw [encode_eq]
  by_cases h1 : v.toNat < 248
  · obtain ⟨w', he, hW⟩ := S.write_ok v.toUInt8 h
    refine ⟨w', ?_, ?_⟩
    · simp [h1, Act.mapErr, he, Res.mapErr]
    · rw [ilint_lt_248 h1]; simpa using hW
  · obtain ⟨w', he, hW⟩ := S.writeAll_ok (ilint v.toNat) h
    exact ⟨w', by simp [h1, Act.mapErr, he, Res.mapErr], hW⟩

theorem decodeFromBytes_cons (h : Byte) (rest : Bytes) :
    decodeFromBytes (h :: rest) =
      if h.toNat < 248 then .ok (h.toUInt64, 1)
      else if rest.length < h.toNat - 247 then .err .invalidFormat
      else if 248 + beVal (rest.take (h.toNat - 247)) < 2 ^ 64 then
        .ok (UInt64.ofNat (248 + beVal (rest.take (h.toNat - 247))), h.toNat - 246)
      else .err .valueOverflow := by
  have hl := h.toNat_lt
  unfold decodeFromBytes
  simp only [decodedSize_eq]
  by_cases h1 : h.toNat < 248
  · simp [h1]
  · have h2 : ¬ (h.toNat - 246 = 1) := by omega
    simp only [h1, if_false, h2, List.length_cons]
    have h3 : h.toNat - 246 - 1 = h.toNat - 247 := by omega
    rw [h3]
    by_cases h4 : rest.length < h.toNat - 247
    · rw [if_pos (by omega), if_pos h4]
    · rw [if_neg (by omega), if_neg h4]
      rw [decodeBody_eq _ (by simp; omega) (by simp; omega)]
      by_cases h5 : 248 + beVal (rest.take (h.toNat - 247)) < 2 ^ 64
      · rw [if_pos h5, if_pos h5]
      · rw [if_neg h5, if_neg h5]

theorem decodeFromBytes_isILInt {enc : Bytes} {v : Nat} (h : IsILInt enc v) (rest : Bytes) :
    decodeFromBytes (enc ++ rest) = .ok (UInt64.ofNat v, enc.length) := by
  obtain ⟨hv, ⟨b, rfl, hb, rfl⟩ | ⟨hd, body, rfl, h1, h8, hh, rfl⟩⟩ := h
  · simp only [List.cons_append, List.nil_append]
    rw [decodeFromBytes_cons, if_pos hb]
    simp
  · simp only [List.cons_append]
    rw [decodeFromBytes_cons, if_neg (by omega), if_neg (by simp; omega)]
    have h3 : hd.toNat - 247 = body.length := by omega
    rw [h3, List.take_left, if_pos hv]
    simp; omega

theorem decodeFromBytes_ok {bs : Bytes} {v : UInt64} {n : Nat} (h : decodeFromBytes bs = .ok (v, n)) :
    IsILInt (bs.take n) v.toNat ∧ n ≤ bs.length ∧ 1 ≤ n ∧ n ≤ 9 := by
  cases bs with
  | nil => simp [decodeFromBytes] at h
  | cons hd rest =>
    have hl := hd.toNat_lt
    rw [decodeFromBytes_cons] at h
    split at h
    · simp at h
      obtain ⟨rfl, rfl⟩ := h
      refine ⟨⟨by simp; omega, .inl ⟨hd, by simp, by assumption, by simp⟩⟩, by simp, by omega, by omega⟩
    · split at h
      · simp at h
      · split at h
        · rename_i h1 h2 h3
          simp at h
          obtain ⟨rfl, rfl⟩ := h
          have h4 : hd.toNat - 246 = (hd.toNat - 247) + 1 := by omega
          refine ⟨⟨by simp; omega, .inr ⟨hd, rest.take (hd.toNat - 247), ?_, ?_, ?_, ?_, ?_⟩⟩, ?_, ?_, ?_⟩
          · rw [h4, List.take_succ_cons]
          · simp; omega
          · simp; omega
          · simp; omega
          · simp; omega
          · simp; omega
          · omega
          · omega
        · simp at h

/-- The stream decoder on a well-behaved reader does what the slice decoder does on the bytes it holds. -/
theorem decode_view {σ : Type} [Reader σ] (V : View σ) {s : σ} {bs : Bytes} (hR : V.R s bs) :
    (∀ v n, decodeFromBytes bs = .ok (v, n) → ∃ s', decode s = (.ok v, s') ∧ V.R s' (bs.drop n)) ∧
    (decodeFromBytes bs = .err .valueOverflow → ∃ s', decode s = (.err .valueOverflow, s')) ∧
    (decodeFromBytes bs = .err .invalidFormat → ∃ e s', decode s = (.err (.ioError e), s') ∧ V.E e) := by
  cases bs with
  | nil =>
    obtain ⟨e, s', hr, he⟩ := V.read_nil hR
    refine ⟨by simp [decodeFromBytes], by simp [decodeFromBytes], fun _ => ⟨e, s', ?_, he⟩⟩
    unfold decode
    exact Act.bind_err (by simp [Act.mapErr, hr, Res.mapErr])
  | cons h rest =>
    have hl := h.toNat_lt
    obtain ⟨s1, hr, hR1⟩ := V.read_cons hR
    have hd : (decode s : Res ILIntErr UInt64 × σ) = (if decodedSize h = 1 then pure h.toUInt64
        else do
          let tmp ← (Reader.readAll (decodedSize h - 1) : Act IoErr σ Bytes).mapErr .ioError
          Act.lift (decodeBody tmp) : Act ILIntErr σ UInt64) s1 := by
      unfold decode
      exact Act.bind_ok (by simp [Act.mapErr, hr, Res.mapErr])
    rw [hd, decodeFromBytes_cons, decodedSize_eq]
    by_cases h1 : h.toNat < 248
    · simp only [h1, if_true]
      refine ⟨?_, by simp, by simp⟩
      rintro v n hvn
      simp at hvn
      obtain ⟨rfl, rfl⟩ := hvn
      exact ⟨s1, rfl, by simpa using hR1⟩
    · have h2 : ¬ (h.toNat - 246 = 1) := by omega
      have h3 : h.toNat - 246 - 1 = h.toNat - 247 := by omega
      have h5 : h.toNat - 246 = (h.toNat - 247) + 1 := by clear hd hR hR1 hr h2 h3; omega
      simp only [h1, if_false, h2, h3]
      by_cases h4 : rest.length < h.toNat - 247
      · obtain ⟨e, s', hr', he⟩ := V.readAll_short (n := h.toNat - 247) hR1 h4
        simp only [h4, if_true]
        refine ⟨by simp, by simp, fun _ => ⟨e, s', ?_, he⟩⟩
        exact Act.bind_err (by simp [Act.mapErr, hr', Res.mapErr])
      · obtain ⟨s', hr', hR'⟩ := V.readAll_ok (n := h.toNat - 247) hR1 (by omega)
        simp only [h4, if_false]
        have hb : ∀ k : Bytes → Act ILIntErr σ UInt64,
            ((Reader.readAll (h.toNat - 247) : Act IoErr σ Bytes).mapErr ILIntErr.ioError >>= k) s1
              = k (rest.take (h.toNat - 247)) s' := fun k =>
          Act.bind_ok (by simp [Act.mapErr, hr', Res.mapErr])
        rw [hb]
        rw [decodeBody_eq _ (by rw [List.length_take]; omega) (by rw [List.length_take]; omega)]
        split
        · refine ⟨?_, by simp only [reduceCtorEq, false_implies], by simp only [reduceCtorEq, false_implies]⟩
          rintro v n hvn
          simp only [Res.ok.injEq, Prod.mk.injEq] at hvn
          obtain ⟨rfl, rfl⟩ := hvn
          exact ⟨s', rfl, by rw [h5, List.drop_succ_cons]; exact hR'⟩
        · exact ⟨by simp, fun _ => ⟨s', rfl⟩, by simp⟩

theorem decodeFromBytes_cases (bs : Bytes) :
    (∃ v n, decodeFromBytes bs = .ok (v, n)) ∨ decodeFromBytes bs = .err .valueOverflow ∨
      decodeFromBytes bs = .err .invalidFormat := by
  cases bs with
  | nil => simp [decodeFromBytes]
  | cons h rest => rw [decodeFromBytes_cons]; repeat' split
                   all_goals simp

end ILInt
end Verif
