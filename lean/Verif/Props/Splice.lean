import Verif.Props.Patch
import Verif.Spec.Splice
/-!
# C100: editing serialized tags without reading them
-/
namespace Verif.Props
open Verif Verif.Spec

section
variable {m : ArithMode} {P : Type} [TagPayload P]

theorem LiesAt.tagEnd {o : RawTagOffset} {t : Tag P} {raw : Bytes} (h : LiesAt o t raw) (hr : raw.length < 2 ^ 64) :
    o.tagEnd m = .ok (o.offset.toNat + (enc t).length) := by
  obtain ⟨a, b, rfl, ho⟩ := h.place
  obtain ⟨hd, hhd⟩ : ∃ hd, enc t = hd ++ encValue t := by rw [enc_eq]; unfold wrap; exact ⟨_, rfl⟩
  have hh := h.header
  have hv := h.value
  rw [hhd, List.length_append, Nat.add_sub_cancel] at hh
  simp only [hhd, List.length_append] at hr
  have := slices_at (m := m) o a hd (encValue t) b (by simp only [List.length_append]; omega) ho hh hv
  unfold RawTagOffset.tagEnd RawTagOffset.valueEnd
  rw [this.2.2, hhd, ho]
  simp only [Res.map, Res.ok.injEq]
  rw [ofNat_toNat64 (by simp only [List.length_append]; omega)]
  simp [Nat.add_assoc]

variable [Env]

theorem splice_ok (new : List (Tag P)) : ∀ (path : List Nat) (i : Nat) (ts ts' : List (Tag P)) (x : Bytes),
    spliceAt i path ts new = some ts' →
    (∀ t ∈ ts, ∀ u, Within u t → StdLayout u ∧ (∀ id us, u = .seq id us → 16 ≤ id.toNat)) →
    (∀ t ∈ ts', ∀ id us, Within (.seq id us) t → (enc (.seq id us)).length ≤ Env.allocMax) →
    (ts.flatMap enc ++ x).length < 2 ^ 64 → (ts'.flatMap enc ++ x).length < 2 ^ 64 →
    splice m i path (ts.flatMap enc ++ x) (new.flatMap enc) = .ok (ts'.flatMap enc ++ x) := by
  intro path
  induction path with
  | nil =>
    intro i ts ts' x h hl _ hlen _
    rw [spliceAt] at h
    split at h
    case isFalse => cases h
    rename_i hi
    simp only [Option.some.injEq] at h
    subst h
    obtain ⟨o, h1, h2, h3⟩ := nthIn_ok (m := m) ts x (fun t ht => (hl t ht t (.refl t)).1) hlen i ts[i] (by simp [hi])
    rw [splice, h1]
    show (do let e ← o.tagEnd m; Res.ok _) = _
    rw [h2.tagEnd hlen]
    show Res.ok _ = _
    rw [Res.ok.injEq, h3, RawTagOffset.tagStart, h3]
    have hsp : ts = ts.take i ++ ts[i] :: ts.drop (i + 1) := by
      rw [List.getElem_cons_drop, List.take_append_drop]
    have hcat : ts.flatMap enc ++ x = (ts.take i).flatMap enc ++ (enc ts[i] ++ ((ts.drop (i + 1)).flatMap enc ++ x)) := by
      conv => lhs; rw [hsp]
      simp only [List.flatMap_append, List.flatMap_cons, List.append_assoc]
    rw [hcat, List.take_left, ← List.drop_drop, List.drop_left, List.drop_left]
    simp
  | cons j path ih =>
    intro i ts ts' x h hl hal hlen hlen'
    rw [spliceAt] at h
    split at h
    case h_2 => cases h
    rename_i id us hi
    simp only [Option.map_eq_some_iff] at h
    obtain ⟨us', h, rfl⟩ := h
    obtain ⟨hi', hget⟩ := List.getElem?_eq_some_iff.mp hi
    obtain ⟨o, h1, h2, h3⟩ := nthIn_ok (m := m) ts x (fun t ht => (hl t ht t (.refl t)).1) hlen i _ hi
    have hmem : Tag.seq id us ∈ ts := List.mem_of_getElem? hi
    have hid : 16 ≤ id.toNat := (hl _ hmem _ (.refl _)).2 id us rfl
    have hsp : ts = ts.take i ++ .seq id us :: ts.drop (i + 1) := by
      rw [← hget, List.getElem_cons_drop, List.take_append_drop]
    have hcat : ts.flatMap enc ++ x =
        (ts.take i).flatMap enc ++ (enc (.seq id us) ++ ((ts.drop (i + 1)).flatMap enc ++ x)) := by
      conv => lhs; rw [hsp]
      simp only [List.flatMap_append, List.flatMap_cons, List.append_assoc]
    have hset : ts.set i (.seq id us') = ts.take i ++ .seq id us' :: ts.drop (i + 1) := by
      rw [List.set_eq_take_append_cons_drop, if_pos hi']
    have hv : encValue (.seq id us) = us.flatMap enc ++ [] := by rw [encValue, encTags_eq]; simp
    have hw : ∀ vs : List (Tag P), (vs.flatMap enc).length ≤ (enc (.seq id vs)).length := fun vs => by
      rw [enc_seq]; exact Nat.le_of_succ_le (wrap_length_ge _ _)
    have hmem' : Tag.seq id us' ∈ ts.set i (.seq id us') := by rw [hset]; simp
    have hlu : (us.flatMap enc ++ []).length < 2 ^ 64 := by
      rw [hcat] at hlen
      have := hw us
      simp only [List.length_append, List.append_nil] at hlen ⊢
      omega
    have hlu' : (enc (.seq id us')).length < 2 ^ 64 := by
      rw [hset] at hlen'
      simp only [List.flatMap_append, List.flatMap_cons, List.length_append] at hlen'
      omega
    have h4 := ih j us us' [] h (fun t ht u hu => hl _ hmem u (.seq ht hu))
      (fun t ht id' vs hu => hal _ hmem' id' vs (.seq ht hu)) hlu (by
        have := hw us'
        simp only [List.append_nil]
        omega)
    have h5 : (enc (.atom (.raw id (us'.flatMap enc)) : Tag Empty)) = enc (.seq id us') := by
      rw [enc_seq, enc_eq]; rfl
    have h6 : (Tag.atom (.raw id (us'.flatMap enc)) : Tag Empty).toBytes = .ok (enc (.seq id us')) := by
      have := C29_to_bytes (Tag.atom (.raw id (us'.flatMap enc)) : Tag Empty) (by
          intro u hu; cases hu; trivial) (by intro _ p; exact p.elim) (by rw [h5]; exact hlu')
        (by rw [h5]; exact hal _ hmem' id us' (.refl _))
      rw [this, ← h5, enc_eq]
      rfl
    rw [splice, h1]
    show (do let value ← o.valueSlice m _; _) = _
    rw [(h2.slices hlen).2.1, hv]
    show (do let value' ← splice m j path _ _; _) = _
    rw [h4, List.append_nil]
    show (do let t ← RawTag.withValue o.id _; _) = _
    rw [h2.id, RawTag.withValue, if_neg (by rw [isImplicit_iff]; simp only [Tag.id]; omega)]
    show (do let new' ← (Tag.atom (.raw id _) : Tag Empty).toBytes; _) = _
    rw [h6]
    show (do let e ← o.tagEnd m; _) = _
    rw [h2.tagEnd hlen]
    show Res.ok _ = _
    rw [Res.ok.injEq, h3, RawTagOffset.tagStart, h3]
    rw [hcat, List.take_left, ← List.drop_drop, List.drop_left, List.drop_left, hset]
    simp

omit [TagPayload P] [Env] in
theorem within_spliceAt {Q : Tag P → Prop} (hq : ∀ id us us', Q (.seq id us) → Q (.seq id us')) (new : List (Tag P))
    (hnew : ∀ t ∈ new, ∀ u, Within u t → Q u) : ∀ (path : List Nat) (i : Nat) (ts ts' : List (Tag P)),
    spliceAt i path ts new = some ts' → (∀ t ∈ ts, ∀ u, Within u t → Q u) → ∀ t ∈ ts', ∀ u, Within u t → Q u := by
  intro path
  induction path with
  | nil =>
    intro i ts ts' h hts t ht u hu
    rw [spliceAt] at h
    split at h
    · simp only [Option.some.injEq] at h
      subst h
      simp only [List.mem_append] at ht
      rcases ht with (ht | ht) | ht
      · exact hts t (List.mem_of_mem_take ht) u hu
      · exact hnew t ht u hu
      · exact hts t (List.mem_of_mem_drop ht) u hu
    · cases h
  | cons j path ih =>
    intro i ts ts' h hts t ht u hu
    rw [spliceAt] at h
    split at h
    · rename_i id us hi
      simp only [Option.map_eq_some_iff] at h
      obtain ⟨us', h, rfl⟩ := h
      have hmem := List.mem_of_getElem? hi
      rcases List.mem_or_eq_of_mem_set ht with ht | rfl
      · exact hts t ht u hu
      · cases hu with
        | refl => exact hq id us us' (hts _ hmem _ (.refl _))
        | seq hv hw => exact ih j us us' h (fun t ht u hu => hts _ hmem u (.seq ht hu)) _ hv u hw
    · cases h

/-- **C100** The bytes of any tags written one after another, followed by anything.  The tag a path through nested
sequences leads to is found with the scanner, the bytes of any other tags, one, none or several, are put in its place, and
the sequences around it are put together again as raw tags of the same ids.  The result is the bytes of the edited tags,
followed by the same. -/
theorem C100_splice (ts ts' new : List (Tag P)) (x : Bytes) (i : Nat) (path : List Nat)
    (h : spliceAt i path ts new = some ts')
    (hl : ∀ t ∈ ts, ∀ u, Within u t → StdLayout u ∧ (∀ id us, u = .seq id us → 16 ≤ id.toNat))
    (ha : ∀ t ∈ ts', ∀ id us, Within (.seq id us) t → (enc (.seq id us)).length ≤ Env.allocMax)
    (hlen : (ts.flatMap enc ++ x).length < 2 ^ 64) (hlen' : (ts'.flatMap enc ++ x).length < 2 ^ 64) :
    splice m i path (ts.flatMap enc ++ x) (new.flatMap enc) = .ok (ts'.flatMap enc ++ x) :=
  splice_ok new path i ts ts' x h hl ha hlen hlen'

/-- **C100** In terms of the API, for tags made of the standard types under their standard ids: what `to_bytes` gives for
the tags is edited into what it gives for the edited tags, and a factory reads them from it. -/
theorem C100_standard (hr : MemoryOk) (strict : Bool) (ts ts' new : List (Tag P)) (bss nbs : List Bytes)
    (hts : ∀ t ∈ ts, MapsOk t ∧ ∀ u, Within u t → StdTag strict u ∧ (encValue u).length ≤ maxValue)
    (hnew : ∀ t ∈ new, MapsOk t ∧ ∀ u, Within u t → StdTag strict u ∧ (encValue u).length ≤ maxValue)
    (hb : ts.map Tag.toBytes = bss.map .ok) (hnb : new.map Tag.toBytes = nbs.map .ok) (i : Nat) (path : List Nat)
    (h : spliceAt i path ts new = some ts') (hfit : ∀ t ∈ ts', ∀ u, Within u t → (encValue u).length ≤ maxValue) (x : Bytes)
    (hlen : (bss.flatten ++ x).length < 2 ^ 64) (hlen' : (ts'.flatMap enc ++ x).length < 2 ^ 64)
    {σ : Type} [Reader σ] (V : View σ) :
    ∃ bss' : List Bytes, ts'.map Tag.toBytes = bss'.map .ok ∧
      splice m i path (bss.flatten ++ x) nbs.flatten = .ok (bss'.flatten ++ x) ∧
      ∀ s, V.R s (bss'.flatten ++ x) → ∃ us s', ReadSeq (Engine.std strict) s us s' ∧ us.length = ts'.length ∧
        (∀ (k : Nat) (h : k < ts'.length) (h' : k < us.length), Same ts'[k] us[k]) ∧ V.R s' x := by
  have hstd : ∀ t ∈ ts', ∀ u, Within u t → StdTag strict u :=
    within_spliceAt (fun id us us' hq => hq) new (fun t ht u hu => ((hnew t ht).2 u hu).1) path i ts ts' h
      (fun t ht u hu => ((hts t ht).2 u hu).1)
  have hmaps : ∀ t ∈ ts', MapsOk t :=
    within_spliceAt (Q := MapOk) (fun _ _ _ _ => trivial) new (fun t ht => (hnew t ht).1) path i ts ts' h
      (fun t ht => (hts t ht).1)
  have hts' : ∀ t ∈ ts', ∀ u, Within u t → StdTag strict u ∧ (encValue u).length ≤ maxValue :=
    fun t ht u hu => ⟨hstd t ht u hu, hfit t ht u hu⟩
  have henc : ∀ t : Tag P, MapsOk t → (∀ u, Within u t → StdTag strict u ∧ (encValue u).length ≤ maxValue) →
      t.toBytes = .ok (enc t) := fun t h1 h2 => toBytes_eq_enc hr h1 (std_payloads h2) (std_supported h2)
  have hb' : ts'.map Tag.toBytes = (ts'.map enc).map .ok := by
    rw [List.map_map]
    exact List.map_congr_left fun t ht => henc t (hmaps t ht) (hts' t ht)
  have hf := flatten_toBytes hb fun t ht => henc t (hts t ht).1 (hts t ht).2
  have hnf := flatten_toBytes hnb fun t ht => henc t (hnew t ht).1 (hnew t ht).2
  have hf' := flatten_toBytes hb' fun t ht => henc t (hmaps t ht) (hts' t ht)
  refine ⟨ts'.map enc, hb', ?_, ?_⟩
  · rw [hf, hnf, hf']
    rw [hf] at hlen
    refine C100_splice ts ts' new x i path h (fun t ht u hu => ?_) (fun t ht id us hu => ?_) hlen hlen'
    · have hu' := ((hts t ht).2 u hu).1
      refine ⟨stdTag_layout hu', ?_⟩
      rintro id us rfl
      rcases hu' with hu' | ⟨-, hu', -⟩
      · simp only [Tag.kind, standardId, Tag.id, Option.some.injEq] at hu'
        omega
      · simp [Tag.kind] at hu'
    · have hw := enc_length_le (std_supported (strict := strict) fun v hv => hts' t ht v (within_trans hv hu))
      unfold MemoryOk at hr
      have : maxValue = 536870912 := rfl
      omega
  · intro s hR
    exact C31_lists hr _ ts' _ (fun t ht => ⟨hmaps t ht, std_payloads (hts' t ht), std_supported (hts' t ht)⟩) hb' V s x hR

end

/-! ### Non-vacuity -/
section
attribute [local instance] bigEnv

/-- A replacement three levels down by a longer tag, so that three sequences get longer size fields; a deletion; an
insertion before a tag. -/
example : (spliceAt 1 [1, 2, 0] deepSample [.atom (.byteArray (List.replicate 300 7))]).map (·.flatMap enc ++ [5]) =
      (match splice .checked 1 [1, 2, 0] (deepSample.flatMap enc ++ [5])
        (enc (.atom (.byteArray (List.replicate 300 7)) : Tag Empty)) with | .ok b => some b | _ => none) ∧
    (spliceAt 1 [1, 2, 0] deepSample [.atom (.byteArray (List.replicate 300 7))]).map (·.map fun t => (enc t).length) =
      some [2, 321] := by decide +kernel
example : (spliceAt 1 [1] deepSample []).map (·.flatMap enc) = some [1, 1, 22, 5, 17, 2, 97, 98, 0] ∧
    (match splice .checked 1 [1] (deepSample.flatMap enc) [] with
      | .ok b => some b | _ => none) = some [1, 1, 22, 5, 17, 2, 97, 98, 0] := by decide +kernel
example : (match splice .checked 1 [0] (deepSample.flatMap enc) ([10, 5] ++ [17, 2, 97, 98]) with
      | .ok b => some (b.take 10) | _ => none) = some [1, 1, 22, 22, 10, 5, 17, 2, 97, 98] ∧
    (spliceAt 1 [0] deepSample [.atom (.ilint 10 5), .atom (.string 17 "ab")]).map (fun ts => (ts.flatMap enc).take 10) =
      some [1, 1, 22, 22, 10, 5, 17, 2, 97, 98] := by decide +kernel
/-- A path that leads nowhere. -/
example : (splice .checked 1 [5] (deepSample.flatMap enc) []).isOk = false := by decide +kernel

end
end Verif.Props
