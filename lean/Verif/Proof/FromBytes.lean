import Verif.Proof.RoundTrip
/-!
# `from_bytes` and `deserialize` as the pure parser
-/
namespace Verif
open Spec
variable {P : Type} [TagPayload P] [Env]

theorem deserialize_matches (e : Engine P) {σ : Type} [Reader σ] (V : View σ) {s : σ} {bs : Bytes} (h : V.R s bs) :
    Matches V (Factory.deserialize e σ s) (Parser.top e bs) :=
  sim_deserializeFuel e Factory.fuel σ V none s bs h

theorem deserialize_ok_of_top {e : Engine P} {σ : Type} [Reader σ] (V : View σ) {s : σ} {bs : Bytes} (h : V.R s bs)
    {t : Tag P} {rest : Bytes} (hp : Parser.top e bs = .ok t rest) :
    ∃ s', Factory.deserialize e σ s = (.ok t, s') ∧ V.R s' rest := by
  have := deserialize_matches e V h
  rw [hp] at this
  exact this

theorem deserialize_fail_of_top {e : Engine P} {σ : Type} [Reader σ] (V : View σ) {s : σ} {bs : Bytes} (h : V.R s bs)
    {x : TagErr} (hp : Parser.top e bs = .fail x) : (Factory.deserialize e σ s).1 = .err x := by
  have := deserialize_matches e V h
  rw [hp] at this
  obtain ⟨s', h'⟩ := this
  rw [h']

theorem ByteArrayReader.rest_eq_nil {r : ByteArrayReader} {rest : Bytes} (h : ByteArrayReader.view.R r rest) :
    r.available = 0 ↔ rest = [] := by
  have h1 : r.offset ≤ r.array.length := h.1
  have h2 : rest = r.array.drop r.offset := h.2
  unfold ByteArrayReader.available ByteArrayReader.len
  rw [h2, List.drop_eq_nil_iff]
  omega

theorem fromBytes_cases (e : Engine P) (bs : Bytes) :
    match Parser.top e bs with
    | .ok t rest => Factory.fromBytes e bs = if rest = [] then .ok t else .err .corruptedData
    | .short => ∃ x, Factory.fromBytes e bs = .err (.ioError x)
    | .fail x => Factory.fromBytes e bs = .err x
    | .panic => Factory.fromBytes e bs = .panic
    | .diverge => Factory.fromBytes e bs = .diverge := by
  have h := deserialize_matches e ByteArrayReader.view.toView (ByteArrayReader.view_new bs)
  unfold Factory.fromBytes
  revert h
  cases Parser.top e bs with
  | ok t rest =>
    rintro ⟨s', h, hR⟩
    rw [h]
    have := ByteArrayReader.rest_eq_nil hR
    by_cases hr : rest = []
    · simp [hr, this.mpr hr]
    · simp [hr, mt this.mp hr]
  | short => rintro ⟨x, s', h, -⟩; rw [h]; exact ⟨x, rfl⟩
  | fail x => rintro ⟨s', h⟩; rw [h]
  | panic => rintro ⟨s', h⟩; rw [h]
  | diverge => rintro ⟨s', h⟩; rw [h]

theorem fromBytes_ok_iff (e : Engine P) (bs : Bytes) (t : Tag P) :
    Factory.fromBytes e bs = .ok t ↔ Parser.top e bs = .ok t [] := by
  have h := fromBytes_cases e bs
  cases hq : Parser.top e bs with
  | ok t' rest =>
    rw [hq] at h
    simp only at h
    rw [h]
    by_cases hr : rest = [] <;> simp [hr]
  | short => rw [hq] at h; obtain ⟨x, h⟩ := h; simp [h]
  | fail x => rw [hq] at h; simp only at h; simp [h]
  | panic => rw [hq] at h; simp only at h; simp [h]
  | diverge => rw [hq] at h; simp only at h; simp [h]

end Verif
