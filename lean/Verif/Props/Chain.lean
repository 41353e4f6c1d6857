import Verif.Props.Patch
import Verif.Props.Equality
import Verif.Spec.Chain
/-!
# C119: records that carry the hash of the one before
-/
namespace Verif.Props
open Verif Verif.Spec
variable {P : Type}
set_option linter.unusedSectionVars false

section
variable [TagPayload P] [Env]

/-- Lists of tags with the same content. -/
def SameTags (ts us : List (Tag P)) : Prop :=
  ts.length = us.length ∧ ∀ (i : Nat) (h : i < ts.length) (h' : i < us.length), Same ts[i] us[i]

theorem SameTags.cons_inv {t u : Tag P} {ts us : List (Tag P)} (h : SameTags (t :: ts) (u :: us)) :
    Same t u ∧ SameTags ts us :=
  ⟨h.2 0 (by simp) (by simp), by simpa using h.1, fun i hi hi' =>
    h.2 (i + 1) (by simpa using hi) (by simpa using hi')⟩

theorem SameTags.snoc {t u : Tag P} {ts us : List (Tag P)} (h : SameTags ts us) (h1 : Same t u) :
    SameTags (ts ++ [t]) (us ++ [u]) := by
  refine ⟨by simp [h.1], fun i hi hi' => ?_⟩
  rcases Nat.lt_or_ge i ts.length with hlt | hge
  · rw [List.getElem_append_left hlt, List.getElem_append_left (by rw [← h.1]; exact hlt)]
    exact h.2 i hlt _
  · have : i = ts.length := by simp at hi; omega
    subst this
    have h2 := h.1
    simp only [List.getElem_append_right (Nat.le_refl _), List.getElem_append_right (Nat.le_of_eq h2.symm)]
    simpa using h1

omit [TagPayload P] [Env] in
theorem carried_same {t u : Tag P} (h : Same t u) : carried t = carried u := by
  cases h with
  | seq id hl h =>
    rename_i ts us
    match ts, us, hl, h with
    | [], [], _, _ => rfl
    | [_], [_], _, _ => rfl
    | [a, b], [c, d], _, h =>
      have h1 : Same b d := h 1 (by simp) (by simp)
      cases h1 with
      | atom a' => cases a' <;> rfl
      | _ => rfl
    | _ :: _ :: _ :: _, _ :: _ :: _ :: _, _, _ => simp [carried]
  | _ => rfl

/-- **C119** Only the content counts: records with the same content, in whatever order the entries of their
dictionaries are held, pass the same checks and give the same hash. -/
theorem C119_content (H : Bytes → Bytes) (ts us : List (Tag P)) (h : SameTags ts us)
    (hts : ∀ t ∈ ts, MapsOk t ∧ PayloadsOk t ∧ (enc t).length < 2 ^ 64) (hus : ∀ u ∈ us, MapsOk u) (g : Bytes) :
    followChain H g ts = followChain H g us := by
  induction ts generalizing us g with
  | nil =>
    have : us = [] := List.length_eq_zero_iff.mp h.1.symm
    subst this
    rfl
  | cons t ts ih =>
    cases us with
    | nil => cases h.1
    | cons u us =>
      obtain ⟨h1, h2⟩ := h.cons_inv
      obtain ⟨hm, hp, hl⟩ := hts t (by simp)
      have hb := (C38_hash_order t u h1 hm (hus u (by simp)) hp hl).2.2.1
      simp only [followChain, carried_same h1, hb]
      split
      · split
        · exact ih us h2 (fun x hx => hts x (by simp [hx])) (fun x hx => hus x (by simp [hx])) _
        · rfl
      · rfl

theorem followChain_snoc (H : Bytes → Bytes) (ts : List (Tag P)) (t : Tag P) (g h : Bytes)
    (hc : followChain H g (ts ++ [t]) = some h) :
    ∃ m bs, followChain H g ts = some m ∧ carried t = some m ∧ t.toBytes = .ok bs ∧ h = H bs := by
  induction ts generalizing g with
  | nil =>
    simp only [List.nil_append, followChain] at hc
    split at hc
    · rename_i hm
      split at hc
      · rename_i bs hb
        exact ⟨g, bs, rfl, hm, hb, by simpa using hc.symm⟩
      · cases hc
    · cases hc
  | cons u ts ih =>
    simp only [List.cons_append, followChain] at hc ⊢
    split at hc
    · split at hc
      · rename_i hm _ bs hb
        rw [if_pos hm]
        exact ih _ hc
      · cases hc
    · cases hc

/-- Two serializations that the hash function does not tell apart, the one among those of `ts`, the other among those
of `us`; or one of either that has the hash of the beginning. -/
def Collision (H : Bytes → Bytes) (g : Bytes) (ts us : List (Tag P)) : Prop :=
  (∃ t ∈ ts, ∃ u ∈ us, ∃ x y, t.toBytes = .ok x ∧ u.toBytes = .ok y ∧ x ≠ y ∧ H x = H y) ∨
  ∃ t, (t ∈ ts ∨ t ∈ us) ∧ ∃ x, t.toBytes = .ok x ∧ H x = g

/-- **C119** The hash of the last record fixes all of them: two chains that start alike and end in the same hash have
as many records, of the same content one by one, or their serializations contain a collision of the hash function. -/
theorem C119_fixed (hr : MemoryOk) (e : Engine P) (H : Bytes → Bytes) (g h : Bytes) (ts us : List (Tag P))
    (hts : ∀ t ∈ ts, MapsOk t ∧ PayloadsOk t ∧ Supported e t) (hus : ∀ t ∈ us, MapsOk t ∧ PayloadsOk t ∧ Supported e t)
    (ht : followChain H g ts = some h) (hu : followChain H g us = some h) :
    SameTags ts us ∨ Collision H g ts us := by
  obtain ⟨rs, rfl⟩ : ∃ rs, ts = rs.reverse := ⟨ts.reverse, by simp⟩
  induction rs generalizing us h with
  | nil =>
    rcases List.eq_nil_or_concat us with rfl | ⟨us, u, rfl⟩
    · exact .inl ⟨rfl, fun i hi => absurd hi (by simp)⟩
    · rw [List.concat_eq_append] at *
      obtain ⟨m, bs, -, -, h3, h4⟩ := followChain_snoc H us u g h hu
      simp only [List.reverse_nil, followChain, Option.some.injEq] at ht
      exact .inr (.inr ⟨u, .inr (by simp), bs, h3, by rw [← h4, ht]⟩)
  | cons t rs ih =>
    rw [List.reverse_cons] at *
    obtain ⟨m, bs, h1, h2, h3, h4⟩ := followChain_snoc H _ t g h ht
    rcases List.eq_nil_or_concat us with rfl | ⟨us, u, rfl⟩
    · simp only [followChain, Option.some.injEq] at hu
      exact .inr (.inr ⟨t, .inl (by simp), bs, h3, by rw [← h4, hu]⟩)
    · rw [List.concat_eq_append] at *
      obtain ⟨m', bs', h1', h2', h3', h4'⟩ := followChain_snoc H us u g h hu
      by_cases hb : bs = bs'
      · have hs : Same t u := C32_injective hr e t u (hts t (by simp)) (hus u (by simp)) (by rw [h3, h3', hb])
        have hmm : m = m' := by
          have := carried_same hs
          rw [h2, h2', Option.some.injEq] at this
          exact this
        subst hmm
        rcases ih m us (fun x hx => hus x (by simp [hx])) h1' (fun x hx => hts x (by simp [List.mem_reverse.mp hx])) h1 with
          ih | ⟨a, ha, b, hb, ih⟩ | ⟨a, ha, ih⟩
        · exact .inl (ih.snoc hs)
        · exact .inr (.inl ⟨a, by simp [List.mem_reverse.mp ha], b, by simp [hb], ih⟩)
        · refine .inr (.inr ⟨a, ?_, ih⟩)
          rcases ha with ha | ha
          · exact .inl (by simp [List.mem_reverse.mp ha])
          · exact .inr (by simp [ha])
      · exact .inr (.inl ⟨t, by simp, u, by simp, bs, bs', h3, h3', hb, by rw [← h4, h4']⟩)

/-- Tags read by the standard factory, one after another. -/
theorem readSeq_std (strict : Bool) {σ : Type} [Reader σ] (V : View σ) {s s' : σ} {us : List (Tag P)}
    (h : ReadSeq (Engine.std strict) s us s') {bs : Bytes} (hR : V.R s bs) :
    ∀ u ∈ us, MapsOk u ∧ PayloadsOk u ∧ Supported (Engine.std strict) u := by
  induction h generalizing bs with
  | nil s => simp
  | @cons s s₁ s₂ t ts h1 _ ih =>
    have hd := deserialize_matches (Engine.std strict : Engine P) V hR
    rw [h1] at hd
    cases htop : Parser.top (Engine.std strict : Engine P) bs with
    | ok t' rest =>
      rw [htop] at hd
      obtain ⟨s1', hd, hR'⟩ := hd
      cases hd
      intro u hu
      rcases List.mem_cons.mp hu with rfl | hu
      · obtain ⟨used, hu1, hu2⟩ := (Local.top (Engine.std strict : Engine P)).ok htop
        have hf := hu2 []
        rw [List.append_nil] at hf
        obtain ⟨hm, hw⟩ := C35_accepted_tags strict used u ((fromBytes_ok_iff _ _ _).mpr hf)
        exact ⟨hm, std_payloads hw, std_supported hw⟩
      · exact ih hR' u hu
    | short => rw [htop] at hd; obtain ⟨_, _, hd, -⟩ := hd; cases hd
    | fail x => rw [htop] at hd; obtain ⟨_, hd⟩ := hd; cases hd
    | panic => rw [htop] at hd; obtain ⟨_, hd⟩ := hd; cases hd
    | diverge => rw [htop] at hd; obtain ⟨_, hd⟩ := hd; cases hd

/-- Tags written one after another are read as the sorted ones. -/
theorem readSeq_canon (hr : MemoryOk) (e : Engine P) (ts : List (Tag P)) (hts : ∀ t ∈ ts, MapsOk t ∧ Supported e t)
    {σ : Type} [Reader σ] (V : View σ) (s : σ) (x : Bytes) (hR : V.R s ((ts.map enc).flatten ++ x)) :
    ∃ s', ReadSeq e s (ts.map canon) s' ∧ V.R s' x := by
  induction ts generalizing s with
  | nil => exact ⟨s, .nil s, by simpa using hR⟩
  | cons t ts ih =>
    rw [List.map_cons, List.flatten_cons, List.append_assoc] at hR
    obtain ⟨hm, hs⟩ := hts t (by simp)
    obtain ⟨s₁, h1, h2⟩ := deserialize_ok_of_top V hR (top_enc hr e t hm hs _)
    obtain ⟨s', h3, h4⟩ := ih (fun t ht => hts t (by simp [ht])) s₁ h2
    exact ⟨s', .cons h1 h3, h4⟩

/-- **C119** Written to a log and read back by anyone, through any reader, the records pass the same checks and give
the same hash. -/
theorem C119_read_back (hr : MemoryOk) (e : Engine P) (H : Bytes → Bytes) (g : Bytes) (ts : List (Tag P))
    (bss : List Bytes) (hts : ∀ t ∈ ts, MapsOk t ∧ PayloadsOk t ∧ Supported e t) (hb : ts.map Tag.toBytes = bss.map .ok)
    {σ : Type} [Reader σ] (V : View σ) (s : σ) (x : Bytes) (hR : V.R s (bss.flatten ++ x)) :
    ∃ us s', ReadSeq e s us s' ∧ us.length = ts.length ∧ V.R s' x ∧ followChain H g us = followChain H g ts := by
  have hbss : bss = ts.map enc := by
    clear hR
    induction ts generalizing bss with
    | nil => cases bss with
      | nil => rfl
      | cons => simp at hb
    | cons t ts ih => cases bss with
      | nil => simp at hb
      | cons b bss =>
        simp only [List.map_cons, List.cons.injEq] at hb ⊢
        obtain ⟨hm, hp, hs⟩ := hts t (by simp)
        have h1 := hb.1
        rw [toBytes_eq_enc hr hm hp hs, Res.ok.injEq] at h1
        exact ⟨h1.symm, ih bss (fun t ht => hts t (by simp [ht])) hb.2⟩
  subst hbss
  obtain ⟨s', h1, h2⟩ := readSeq_canon hr e ts (fun t ht => ⟨(hts t ht).1, (hts t ht).2.2⟩) V s x hR
  refine ⟨ts.map canon, s', h1, by simp, h2, ?_⟩
  refine (C119_content H ts (ts.map canon) ⟨by simp, fun i hi hi' => ?_⟩ (fun t ht => ?_) (fun u hu => ?_) g).symm
  · simp only [List.getElem_map]
    exact same_canon (hts _ (List.getElem_mem hi)).1
  · obtain ⟨hm, hp, hs⟩ := hts t ht
    have := enc_length_le hs
    have h9 : maxValue = 536870912 := rfl
    exact ⟨hm, hp, by omega⟩
  · obtain ⟨t, ht, rfl⟩ := List.mem_map.mp hu
    exact mapsOk_canon (hts t ht).1

/-- **C119** Nobody can change the past: whatever bytes take the place of the log, if the standard factory reads tags
from them and these pass the checks with the hash of the last record of the original, then they are records of the
same content as the original ones, one by one, or a collision of the hash function is found in them. -/
theorem C119_tampered (hr : MemoryOk) (strict : Bool) (H : Bytes → Bytes) (g h : Bytes) (ts : List (Tag P))
    (hts : ∀ t ∈ ts, MapsOk t ∧ PayloadsOk t ∧ Supported (Engine.std strict) t) (ht : followChain H g ts = some h)
    {σ : Type} [Reader σ] (V : View σ) {s s' : σ} {bs : Bytes} (hR : V.R s bs) (us : List (Tag P))
    (hu : ReadSeq (Engine.std strict) s us s') (hc : followChain H g us = some h) :
    SameTags ts us ∨ Collision H g ts us :=
  C119_fixed hr (Engine.std strict) H g h ts us hts (readSeq_std strict V hu hR) ht hc

/-- **C119** The records made for some bodies pass the checks. -/
theorem C119_made (H : Bytes → Bytes) (g : Bytes) (bodies : List (Tag P))
    (hb : ∀ t ∈ chainOf H g bodies, ∃ bs, t.toBytes = .ok bs) :
    (chainOf H g bodies).length = bodies.length ∧ ∃ h, followChain H g (chainOf H g bodies) = some h := by
  induction bodies generalizing g with
  | nil => exact ⟨rfl, g, rfl⟩
  | cons b bodies ih =>
    simp only [chainOf] at hb ⊢
    obtain ⟨bs, h1⟩ := hb (.seq 22 [b, .atom (.byteArray g)]) (by simp)
    simp only [h1] at hb ⊢
    obtain ⟨h2, h, h3⟩ := ih (H bs) fun t ht => hb t (by simp [ht])
    refine ⟨by simp [h2], h, ?_⟩
    simp only [followChain, carried, if_true, h1]
    exact h3

end

section
attribute [local instance] bigEnv

/-- Three bodies, one of them a dictionary; the hash is the sum of the bytes, followed by the number of bytes. -/
def chainBodies : List (Tag Empty) :=
  [.atom (.ilint 10 5), .dict 30 [("b", .atom (.null 0)), ("a", .atom (.bool 1 true))], .atom (.string 17 "x")]
def weakHash (bs : Bytes) : Bytes := [bs.foldl (· + ·) 0, UInt8.ofNat bs.length]

/-- The chain for them is made of three records and passes the checks. -/
example : (chainOf weakHash [0] chainBodies).map enc =
      [[22, 5, 10, 5, 16, 1, 0], [22, 16, 30, 10, 2, 17, 1, 97, 1, 1, 17, 1, 98, 0, 16, 2, 59, 7], [22, 7, 17, 1, 120, 16, 2, 141, 18]] ∧
    followChain weakHash [0] (chainOf weakHash [0] chainBodies) = some [88, 9] := by
  refine ⟨by decide +kernel, by decide +kernel⟩

/-- A weak hash does not protect: the letters of a body are exchanged, and the hash is the same.  The collision is
the one `C119_fixed` speaks of. -/
example :
    let ts : List (Tag Empty) := chainOf weakHash [0] [.atom (.string 17 "xy")]
    let us : List (Tag Empty) := chainOf weakHash [0] [.atom (.string 17 "yx")]
    followChain weakHash [0] ts = followChain weakHash [0] us ∧ ts.map enc ≠ us.map enc := by
  refine ⟨by decide +kernel, by decide +kernel⟩

/-- **C119** The hash must be that of the serialization of the tag, not of the bytes received: here are bytes accepted
as a record, and a next record that carries the hash of these bytes, that do not pass the checks; the entries of the
dictionary were sent in another order than `to_bytes` writes them. -/
theorem C119_received : ∃ (bs : Bytes) (t u : Tag Empty), Factory.fromBytes (Engine.std true) bs = .ok t ∧
    carried t = some [] ∧ carried u = some (id bs) ∧ (∃ h, followChain id [] [t] = some h) ∧
    followChain id [] [t, u] = none := by
  have hm : (match Factory.fromBytes (Engine.std true : Engine Empty)
        [22, 13, 30, 9, 2, 17, 1, 98, 0, 17, 1, 97, 0, 16, 0] with
      | .ok t => decide (carried t = some [] ∧ (followChain id [] [t]).isSome = true ∧
          followChain id [] [t, .seq 22 [.atom (.null 0),
            .atom (.byteArray [22, 13, 30, 9, 2, 17, 1, 98, 0, 17, 1, 97, 0, 16, 0])]] = none)
      | _ => false) = true := by
    unfold Factory.fromBytes
    rw [deserialize_eq]
    decide +kernel
  cases h : Factory.fromBytes (Engine.std true : Engine Empty) [22, 13, 30, 9, 2, 17, 1, 98, 0, 17, 1, 97, 0, 16, 0] with
  | ok t =>
    rw [h] at hm
    have hm := of_decide_eq_true hm
    exact ⟨_, t, .seq 22 [.atom (.null 0), .atom (.byteArray [22, 13, 30, 9, 2, 17, 1, 98, 0, 17, 1, 97, 0, 16, 0])], h,
      hm.1, rfl, Option.isSome_iff_exists.mp hm.2.1, hm.2.2⟩
  | _ => rw [h] at hm; cases hm

end

section
attribute [local instance] bigEnv
theorem chainBodies_ok : ∀ t ∈ chainOf weakHash [0] chainBodies, MapsOk t ∧ PayloadsOk t ∧ Supported (Engine.std true) t := fun t ht =>
  ⟨mapsOk_of_B (by revert t; decide +kernel), sample_payloads t, supported_of_B (by revert t; decide +kernel)⟩

/-- Any other history of supported tags that ends with the same hash is the same or shows a collision. -/
example (us : List (Tag Empty)) (hus : ∀ t ∈ us, MapsOk t ∧ PayloadsOk t ∧ Supported (Engine.std true) t)
    (hu : followChain weakHash [0] us = some [88, 9]) :
    SameTags (chainOf weakHash [0] chainBodies) us ∨ Collision weakHash [0] (chainOf weakHash [0] chainBodies) us :=
  C119_fixed bigEnv_ok (Engine.std true) weakHash [0] [88, 9] _ us chainBodies_ok hus (by decide +kernel) hu

example : ∃ us s', ReadSeq (Engine.std true : Engine Empty) (ByteArrayReader.new (((chainOf weakHash [0] chainBodies).map enc).flatten ++ [9])) us s' ∧
    us.length = 3 ∧ followChain weakHash [0] us = some [88, 9] := by
  obtain ⟨us, s', h1, h2, -, h4⟩ := C119_read_back bigEnv_ok (Engine.std true) weakHash [0] _
    ((chainOf weakHash [0] chainBodies).map enc) chainBodies_ok (by decide +kernel) ByteArrayReader.view.toView _ [9] (ByteArrayReader.view_new _)
  exact ⟨us, s', h1, h2.trans (by decide +kernel), h4.trans (by decide +kernel)⟩

end

end Verif.Props
