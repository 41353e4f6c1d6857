import Verif.Props.Access
/-!
# Property theorems: replacing a nested tag in place
-/
namespace Verif.Props
open Verif Verif.Spec
set_option linter.unusedSectionVars false

section
variable {m : ArithMode} {P : Type} [TagPayload P]

/-! ### C91 -/

theorem wrap_same_length (id : UInt64) (v v' : Bytes) (h : v.length = v'.length) :
    ∃ hd, wrap id v = hd ++ v ∧ wrap id v' = hd ++ v' := by
  unfold wrap
  rw [h]
  exact ⟨_, rfl, rfl⟩

theorem enc_seq (id : UInt64) (ts : List (Tag P)) : enc (.seq id ts) = wrap id (ts.flatMap enc) := by
  rw [enc_eq, encValue, encTags_eq]; rfl

/-- The serialized form of a tag and of the tag with an equally long tag in its place agree around that place. -/
theorem enc_replaceAt (c c' : Tag P) (hlen : (enc c').length = (enc c).length) : ∀ (path : List Nat) (t : Tag P),
    childAt t path = some c → ∃ a b, enc t = a ++ enc c ++ b ∧ a.length = startOf t path ∧
      enc (replaceAt t path c') = a ++ enc c' ++ b := by
  intro path
  induction path with
  | nil =>
    intro t h
    have h : some t = some c := by unfold childAt at h; exact h
    cases h
    exact ⟨[], [], by simp, by unfold startOf; rfl, by unfold replaceAt; simp⟩
  | cons i path ih =>
    intro t h
    cases t with
    | seq id ts =>
      unfold childAt at h
      rcases hi : ts[i]? with _ | u
      · rw [hi] at h; cases h
      rw [hi] at h
      obtain ⟨a, b, h1, h2, h3⟩ := ih u h
      obtain ⟨hlt, hget⟩ := List.getElem?_eq_some_iff.mp hi
      have hsp : ts = ts.take i ++ u :: ts.drop (i + 1) := by
        rw [← hget, List.getElem_cons_drop, List.take_append_drop]
      have hset : ts.set i (replaceAt u path c') = ts.take i ++ replaceAt u path c' :: ts.drop (i + 1) := by
        rw [List.set_eq_take_append_cons_drop, if_pos hlt]
      have hf : ts.flatMap enc = (ts.take i).flatMap enc ++ enc u ++ (ts.drop (i + 1)).flatMap enc := by
        conv => lhs; rw [hsp]
        simp
      have hf' : (ts.set i (replaceAt u path c')).flatMap enc =
          (ts.take i).flatMap enc ++ enc (replaceAt u path c') ++ (ts.drop (i + 1)).flatMap enc := by
        rw [hset]; simp
      have hel : (enc (replaceAt u path c')).length = (enc u).length := by
        rw [h1, h3]; simp only [List.length_append]; omega
      obtain ⟨hd, hw, hw'⟩ := wrap_same_length id (ts.flatMap enc) ((ts.set i (replaceAt u path c')).flatMap enc) (by
        rw [hf, hf']; simp only [List.length_append]; omega)
      have hst : startOf (.seq id ts) (i :: path) = ((enc (.seq id ts)).length - (encValue (.seq id ts)).length) +
          ((ts.take i).flatMap enc).length + startOf u path := by
        rw [startOf, hi]
      have hrep : replaceAt (.seq id ts) (i :: path) c' = .seq id (ts.set i (replaceAt u path c')) := by
        rw [replaceAt, hi]
      refine ⟨hd ++ (ts.take i).flatMap enc ++ a, b ++ (ts.drop (i + 1)).flatMap enc, ?_, ?_, ?_⟩
      · rw [enc_seq, hw, hf, h1]; simp
      · rw [hst, ← h2, enc_seq, encValue, encTags_eq, hw]
        simp only [List.length_append]
        omega
      · rw [hrep, enc_seq, hw', hf', h3]; simp
    | _ => unfold childAt at h; cases h

theorem overwrite_middle (a c c' b : Bytes) (h : c'.length = c.length) :
    overwrite (a ++ c ++ b) a.length c' = a ++ c' ++ b := by
  have h1 : (a ++ c ++ b).take a.length = a := by rw [List.append_assoc, List.take_left]
  have h2 : (a ++ c ++ b).drop (a.length + c'.length) = b := by rw [h, ← List.length_append, List.drop_left]
  unfold overwrite
  rw [h1, h2]

/-- **C91** The bytes of any tags written one after another, followed by anything, are in a buffer.  A nested tag is
located with the scanner, the writer over the buffer is set to its offset, and another tag of the same size is serialized
there.  Then the buffer holds exactly the bytes of the tags with the nested tag replaced. -/
theorem C91_patch (ts : List (Tag P)) (x : Bytes) (hlen : (ts.flatMap enc ++ x).length < 2 ^ 64)
    (hl : ∀ t ∈ ts, ∀ u, Within u t → StdLayout u) (i : Nat) (path : List Nat) (t c c' : Tag P) (ht : ts[i]? = some t)
    (hc : childAt t path = some c) (hm : MapsOk c') (hp : PayloadsOk c') (hsize : (enc c').length = (enc c).length) :
    ∃ o w, locate m (ts.flatMap enc ++ x) i path = .ok o ∧
      c'.serialize ((ByteArrayWriter.new (ts.flatMap enc ++ x)).setOffset o.offset.toNat) = (.ok (), w) ∧
      w.array = (ts.set i (replaceAt t path c')).flatMap enc ++ x ∧
      w.offset = o.offset.toNat + o.headerSize.toNat + o.valueSize.toNat := by
  obtain ⟨o, h1, h2, h7⟩ := nthIn_ok (m := m) ts x (fun t ht => hl t ht t (.refl t)) hlen i t ht
  obtain ⟨o', h3, h4, h8⟩ := descend_ok (m := m) _ hlen path o t c (hl t (List.mem_of_getElem? ht)) h2 hc
  obtain ⟨a, b, e1, e2, e3⟩ := enc_replaceAt c c' hsize path t hc
  obtain ⟨hlt, hget⟩ := List.getElem?_eq_some_iff.mp ht
  have hsp : ts = ts.take i ++ t :: ts.drop (i + 1) := by
    rw [← hget, List.getElem_cons_drop, List.take_append_drop]
  have hset : ts.set i (replaceAt t path c') = ts.take i ++ replaceAt t path c' :: ts.drop (i + 1) := by
    rw [List.set_eq_take_append_cons_drop, if_pos hlt]
  have hraw : ts.flatMap enc ++ x = ((ts.take i).flatMap enc ++ a) ++ enc c ++
      (b ++ (ts.drop (i + 1)).flatMap enc ++ x) := by
    conv => lhs; rw [hsp]
    simp [e1]
  have hraw' : (ts.set i (replaceAt t path c')).flatMap enc ++ x = ((ts.take i).flatMap enc ++ a) ++ enc c' ++
      (b ++ (ts.drop (i + 1)).flatMap enc ++ x) := by
    rw [hset]; simp [e3]
  have hoff : o'.offset.toNat = ((ts.take i).flatMap enc ++ a).length := by
    rw [h8, h7, List.length_append, e2]
  have hcl : (enc c).length < 2 ^ 64 := by
    rw [hraw] at hlen; simp only [List.length_append] at hlen; omega
  have hle : o'.offset.toNat + (enc c).length ≤ (ts.flatMap enc ++ x).length := by
    rw [hraw, hoff]; simp only [List.length_append]; omega
  have hval : (encValue c).length ≤ (enc c).length := by rw [enc_eq]; exact Nat.le_of_succ_le (wrap_length_ge _ _)
  have hs : c'.size.toNat = (enc c').length := by
    rw [c'.size_eq hp (by omega)]; exact lenU64_toNat (by omega)
  have hser := (C68_bounded_buffer c' hm hp (by omega) (ts.flatMap enc ++ x) o'.offset.toNat (by omega)).1 (by omega)
  have hso : (ByteArrayWriter.new (ts.flatMap enc ++ x)).setOffset o'.offset.toNat =
      ⟨ts.flatMap enc ++ x, o'.offset.toNat⟩ := by
    unfold ByteArrayWriter.setOffset ByteArrayWriter.new
    simp only [ByteArrayWriter.mk.injEq, true_and]
    omega
  refine ⟨o', _, ?_, by rw [hso]; exact hser, ?_, ?_⟩
  · unfold locate
    rw [h1]
    exact h3
  · show overwrite _ _ _ = _
    rw [hraw', hoff, hraw]
    exact overwrite_middle _ _ _ _ hsize
  · show o'.offset.toNat + c'.size.toNat = _
    rw [hs, hsize, h4.header, h4.value]
    omega

/-- What holds of all tags within `t` and within `c'`, and does not depend on what a sequence holds but for the length of
its value, holds of all tags within `t` with `c'` at the end of the path. -/
theorem within_replaceAt {Q : Tag P → Prop} (c c' : Tag P) (hlen : (enc c').length = (enc c).length)
    (hc' : ∀ u, Within u c' → Q u)
    (hq : ∀ id ts ts', (encValue (.seq id ts)).length = (encValue (.seq id ts')).length → Q (.seq id ts) → Q (.seq id ts')) :
    ∀ (path : List Nat) (t : Tag P), childAt t path = some c → (∀ u, Within u t → Q u) →
      ∀ u, Within u (replaceAt t path c') → Q u := by
  intro path
  induction path with
  | nil =>
    intro t _ _ u hu
    unfold replaceAt at hu
    exact hc' u hu
  | cons i path ih =>
    intro t h ht u hu
    cases t with
    | seq id ts =>
      obtain ⟨a, b, e1, -, e3⟩ := enc_replaceAt c c' hlen (i :: path) (.seq id ts) h
      unfold childAt at h
      rcases hi : ts[i]? with _ | v
      · rw [hi] at h; cases h
      rw [hi] at h
      have hrep : replaceAt (.seq id ts) (i :: path) c' = .seq id (ts.set i (replaceAt v path c')) := by
        rw [replaceAt, hi]
      obtain ⟨a', b', e1', -, e3'⟩ := enc_replaceAt c c' hlen path v h
      obtain ⟨hlt, hget⟩ := List.getElem?_eq_some_iff.mp hi
      rw [hrep] at hu e3
      cases hu with
      | refl =>
        refine hq id ts _ ?_ (ht _ (.refl _))
        have hsp : ts = ts.take i ++ v :: ts.drop (i + 1) := by
          rw [← hget, List.getElem_cons_drop, List.take_append_drop]
        rw [encValue, encValue, encTags_eq, encTags_eq, List.set_eq_take_append_cons_drop, if_pos hlt]
        conv => lhs; rw [hsp]
        simp only [List.flatMap_append, List.flatMap_cons, List.length_append, e1', e3']
        omega
      | seq hmem hw =>
        rcases List.mem_or_eq_of_mem_set hmem with hmem | rfl
        · exact ht _ (.seq hmem hw)
        · exact ih v h (fun u hu => ht u (.seq (List.mem_of_getElem? hi) hu)) u hw
    | _ => unfold childAt at h; cases h

theorem flatten_toBytes [Env] {ts : List (Tag P)} {bss : List Bytes} (hb : ts.map Tag.toBytes = bss.map .ok)
    (henc : ∀ t ∈ ts, t.toBytes = .ok (enc t)) : bss.flatten = ts.flatMap enc := by
  induction ts generalizing bss with
  | nil =>
    cases bss with
    | nil => rfl
    | cons b bs => simp at hb
  | cons t ts ih =>
    cases bss with
    | nil => simp at hb
    | cons b bs =>
      simp only [List.map_cons, List.cons.injEq] at hb
      have h1 := henc t (List.mem_cons_self ..)
      rw [hb.1, Res.ok.injEq] at h1
      rw [List.flatten_cons, List.flatMap_cons, ih hb.2 (fun u hu => henc u (List.mem_cons_of_mem _ hu)), h1]

theorem std_payloads {strict : Bool} {t : Tag P} (h : ∀ u, Within u t → StdTag strict u ∧ (encValue u).length ≤ maxValue) :
    PayloadsOk t := fun id p hu => by
  rcases (h _ hu).1 with h | ⟨-, h, -⟩
  · simp [Tag.kind, Atom.kind, standardId] at h
  · simp [Tag.kind, Atom.kind] at h

/-- **C91** In terms of the API, for tags made of the standard types under their standard ids: what `to_bytes` gives for
the tags is patched into what `to_bytes` gives for the tags with the replacement, and the patched tag is read back as the
tag with the replacement. -/
theorem C91_standard [Env] (hr : MemoryOk) (strict : Bool) (ts : List (Tag P)) (bss : List Bytes)
    (hts : ∀ t ∈ ts, MapsOk t ∧ ∀ u, Within u t → StdTag strict u ∧ (encValue u).length ≤ maxValue)
    (hb : ts.map Tag.toBytes = bss.map .ok) (x : Bytes) (hlen : (bss.flatten ++ x).length < 2 ^ 64)
    (i : Nat) (path : List Nat) (t c c' : Tag P) (ht : ts[i]? = some t) (hc : childAt t path = some c)
    (hm : MapsOk c') (hs : ∀ u, Within u c' → StdTag strict u ∧ (encValue u).length ≤ maxValue)
    (hsize : c'.size = c.size) :
    ∃ o w bs t', locate m (bss.flatten ++ x) i path = .ok o ∧
      c'.serialize ((ByteArrayWriter.new (bss.flatten ++ x)).setOffset o.offset.toNat) = (.ok (), w) ∧
      (replaceAt t path c').toBytes = .ok bs ∧ w.array = (bss.set i bs).flatten ++ x ∧
      Factory.fromBytes (Engine.std strict) bs = .ok t' ∧ Same (replaceAt t path c') t' := by
  have henc : ∀ t ∈ ts, t.toBytes = .ok (enc t) := fun t ht =>
    toBytes_eq_enc hr (hts t ht).1 (std_payloads (hts t ht).2) (std_supported (hts t ht).2)
  have hflat := flatten_toBytes hb henc
  have hmem := List.mem_of_getElem? ht
  obtain ⟨h1, h2⟩ := hts t hmem
  have hw := within_childAt path t hc
  have hbig : ∀ u : Tag P, (encValue u).length ≤ maxValue → (enc u).length < 2 ^ 64 := by
    intro u hu
    have hmax : maxValue < 2 ^ 32 := by decide
    have h9 : ∀ v : Nat, v < 2 ^ 64 → (Spec.ilint v).length ≤ 9 := by
      intro v hv
      obtain ⟨-, ⟨b, hb, -⟩ | ⟨hd, body, hb, -, h8, -⟩⟩ := ILInt.isILInt_ilint hv
      · rw [hb, List.length_singleton]; omega
      · rw [hb, List.length_cons]; omega
    have ha := h9 u.id.toNat u.id.toNat_lt
    have hb := h9 (encValue u).length (by omega)
    rw [enc_eq]
    unfold wrap
    simp only [List.length_append]
    split
    · simp only [List.length_nil]; omega
    · omega
  have hsz : ∀ u : Tag P, (∀ v, Within v u → StdTag strict v ∧ (encValue v).length ≤ maxValue) →
      u.size.toNat = (enc u).length := fun u hu => by
    have hlt := hbig u (hu u (.refl u)).2
    rw [u.size_eq (std_payloads hu) hlt]; exact lenU64_toNat hlt
  have hel : (enc c').length = (enc c).length := by
    rw [← hsz c' hs, ← hsz c (fun v hv => h2 v (within_trans hv hw)), hsize]
  have hstd : ∀ u, Within u (replaceAt t path c') → StdTag strict u ∧ (encValue u).length ≤ maxValue :=
    within_replaceAt (Q := fun u => StdTag strict u ∧ (encValue u).length ≤ maxValue) c c' hel hs
      (fun id ts ts' hl hq => ⟨hq.1, by rw [← hl]; exact hq.2⟩) path t hc h2
  have hmaps : MapsOk (replaceAt t path c') :=
    within_replaceAt (Q := MapOk) c c' hel hm (fun _ _ _ _ _ => trivial) path t hc h1
  have hbytes := toBytes_eq_enc hr hmaps (std_payloads hstd) (std_supported hstd)
  obtain ⟨bs, t', h3, h4, h5⟩ := C30_standard hr strict _ hmaps hstd
  rw [hbytes, Res.ok.injEq] at h3
  subst h3
  rw [hflat] at hlen ⊢
  obtain ⟨o, w, h6, h7, h8, -⟩ := C91_patch (m := m) ts x hlen (fun t ht u hu => stdTag_layout ((hts t ht).2 u hu).1)
    i path t c c' ht hc hm (std_payloads hs) hel
  refine ⟨o, w, _, t', h6, h7, hbytes, ?_, h4, h5⟩
  rw [h8]
  congr 1
  refine (flatten_toBytes (ts := ts.set i (replaceAt t path c')) ?_ fun u hu => ?_).symm
  · rw [List.map_set, List.map_set, hb, hbytes]
  · rcases List.mem_or_eq_of_mem_set hu with hu | rfl
    · exact henc u hu
    · exact hbytes

/-- Non-vacuity: the raw tag three levels down replaced by another one, byte by byte. -/
example : (childAt (deepSample[1]) [1, 2, 0]).map (·.size) = some 7 ∧
    (Tag.atom (.raw 1000 [9, 9, 9]) : Tag Empty).size = 7 := by decide +kernel
example : ((Tag.atom (.raw 1000 [9, 8, 7]) : Tag Empty).serialize
      ((ByteArrayWriter.new (deepSample.flatMap enc ++ [5])).setOffset 16)).2.array =
    (deepSample.set 1 (replaceAt deepSample[1] [1, 2, 0] (.atom (.raw 1000 [9, 8, 7])))).flatMap enc ++ [5] := by
  decide +kernel
/-- The size matters: a shorter tag leaves rubbish behind it. -/
example : ((Tag.atom (.raw 1000 [9, 8]) : Tag Empty).serialize
      ((ByteArrayWriter.new (deepSample.flatMap enc ++ [5])).setOffset 16)).2.array ≠
    (deepSample.set 1 (replaceAt deepSample[1] [1, 2, 0] (.atom (.raw 1000 [9, 8])))).flatMap enc ++ [5] := by
  decide +kernel

end
end Verif.Props
