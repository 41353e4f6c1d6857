import Verif.Spec.Access
import Verif.Props.Scanner
/-!
# Property theorems: reaching a nested tag with the scanner
-/
namespace Verif.Props
open Verif Verif.Spec
set_option linter.unusedSectionVars false

section
variable {m : ArithMode} {P : Type} [TagPayload P]

/-! ### C84 -/

/-- `o` is where the tag `t` lies in `raw`. -/
structure LiesAt (o : RawTagOffset) (t : Tag P) (raw : Bytes) : Prop where
  id : o.id = t.id
  header : o.headerSize.toNat = (enc t).length - (encValue t).length
  value : o.valueSize.toNat = (encValue t).length
  place : ∃ a b, raw = a ++ enc t ++ b ∧ o.offset.toNat = a.length

theorem LiesAt.slices {o : RawTagOffset} {t : Tag P} {raw : Bytes} (h : LiesAt o t raw) (hr : raw.length < 2 ^ 64) :
    o.tagSlice m raw = .ok (enc t) ∧ o.valueSlice m raw = .ok (encValue t) ∧
      o.offset.toNat + o.headerSize.toNat + o.valueSize.toNat ≤ raw.length := by
  obtain ⟨a, b, rfl, ho⟩ := h.place
  obtain ⟨hd, hhd⟩ : ∃ hd, enc t = hd ++ encValue t := by rw [enc_eq]; unfold wrap; exact ⟨_, rfl⟩
  have hh := h.header
  have hv := h.value
  rw [hhd, List.length_append, Nat.add_sub_cancel] at hh
  simp only [hhd, List.length_append] at hr
  have := slices_at (m := m) o a hd (encValue t) b (by simp only [List.length_append]; omega) ho hh hv
  refine ⟨?_, ?_, ?_⟩
  · rw [hhd, ← List.append_assoc]; exact this.1
  · rw [hhd, ← List.append_assoc]; exact this.2.1
  · simp only [hhd, List.length_append]; omega

theorem scanNth_positions {σ : Type} [Reader σ] : ∀ (i : Nat) (s s' : RawTagScanner σ) (os : List RawTagOffset)
    (o : RawTagOffset), ScanSeq m s os s' → os[i]? = some o → (scanNth m i s).1 = .ok o := by
  intro i
  induction i with
  | zero =>
    intro s s' os o h ho
    cases h with
    | nil => simp at ho
    | cons h1 h2 =>
      simp only [List.getElem?_cons_zero, Option.some.injEq] at ho
      subst ho
      unfold scanNth
      rw [Act.bind_ok h1]
      rfl
  | succ i ih =>
    intro s s' os o h ho
    cases h with
    | nil => simp at ho
    | cons h1 h2 =>
      rw [List.getElem?_cons_succ] at ho
      unfold scanNth
      rw [Act.bind_ok h1]
      exact ih _ _ _ _ h2 ho

/-- The `i`-th tag of a list is found where it lies. -/
theorem nthIn_ok (ts : List (Tag P)) (x : Bytes) (hl : ∀ t ∈ ts, StdLayout t)
    (hlen : (ts.flatMap enc ++ x).length < 2 ^ 64) (i : Nat) (t : Tag P) (ht : ts[i]? = some t) :
    ∃ o, nthIn m (ts.flatMap enc ++ x) i = .ok o ∧ LiesAt o t (ts.flatMap enc ++ x) ∧
      o.offset.toNat = ((ts.take i).flatMap enc).length := by
  rw [List.length_append] at hlen
  obtain ⟨s', hs, -⟩ := C56_scan (m := m) ByteArrayReader.view ts (ByteArrayReader.new (ts.flatMap enc ++ x)) x
    (ByteArrayReader.view_new _) hl (by omega)
  obtain ⟨hi, rfl⟩ := List.getElem?_eq_some_iff.mp ht
  have hsp : ts = ts.take i ++ ts[i] :: ts.drop (i + 1) := by
    rw [List.getElem_cons_drop, List.take_append_drop]
  generalize hta : ts.take i = a at hsp
  generalize htb : ts.drop (i + 1) = b at hsp
  generalize htt : ts[i] = t at hsp ⊢
  have hai : a.length = i := by rw [← hta, List.length_take]; omega
  clear htb htt ht
  have hcat : ts.flatMap enc ++ x = a.flatMap enc ++ enc t ++ (b.flatMap enc ++ x) := by
    rw [hsp]; simp
  have hlt : (a.flatMap enc).length + (enc t).length < 2 ^ 64 := by
    have := congrArg List.length hcat
    simp only [List.length_append] at this
    omega
  have hpos : (positions 0 ts)[i]? = some ⟨t.id, UInt64.ofNat (a.flatMap enc).length,
      UInt64.ofNat ((enc t).length - (encValue t).length), UInt64.ofNat (encValue t).length⟩ := by
    rw [hsp, positions_split, Nat.zero_add, List.getElem?_append_right (by rw [positions_length]; omega),
      positions_length, hai, Nat.sub_self]
    rfl
  have hvl : (encValue t).length ≤ (enc t).length := by rw [enc_eq]; exact Nat.le_of_succ_le (wrap_length_ge _ _)
  refine ⟨_, scanNth_positions i _ _ _ _ hs hpos, ⟨rfl, ofNat_toNat64 (by omega), ofNat_toNat64 (by omega), _, _, hcat,
    ofNat_toNat64 (by omega)⟩, ofNat_toNat64 (by omega)⟩

theorem descend_ok (raw : Bytes) (hr : raw.length < 2 ^ 64) : ∀ (path : List Nat) (o : RawTagOffset) (t c : Tag P),
    (∀ u, Within u t → StdLayout u) → LiesAt o t raw → childAt t path = some c →
    ∃ o', descend m raw o path = .ok o' ∧ LiesAt o' c raw ∧ o'.offset.toNat = o.offset.toNat + startOf t path := by
  intro path
  induction path with
  | nil =>
    intro o t c _ ho hc
    have hc : some t = some c := by unfold childAt at hc; exact hc
    cases hc
    exact ⟨o, rfl, ho, by unfold startOf; rfl⟩
  | cons i path ih =>
    intro o t c hl ho hc
    cases t with
    | seq id ts =>
      unfold childAt at hc
      rcases hi : ts[i]? with _ | u
      · rw [hi] at hc; cases hc
      rw [hi] at hc
      have hmem : u ∈ ts := List.mem_of_getElem? hi
      obtain ⟨-, hv, hle⟩ := ho.slices (m := m) hr
      have hev : encValue (.seq id ts) = ts.flatMap enc := by rw [encValue, encTags_eq]
      obtain ⟨a, b, hraw, hoff⟩ := ho.place
      have hvlen : (ts.flatMap enc).length < 2 ^ 64 := by
        have := ho.value
        rw [hev] at this
        omega
      obtain ⟨k, hk, hku, hkoff⟩ := nthIn_ok (m := m) ts [] (fun u hu => hl u (.seq hu (.refl u))) (by simpa using hvlen) i u hi
      rw [List.append_nil] at hk hku
      obtain ⟨-, -, hkle⟩ := hku.slices (m := m) hvlen
      rw [hev] at hv
      obtain ⟨k', st, hk', h1, h2, h3, hst, h4, -, -, -⟩ := (C61_maps (m := m) k o raw _ hv (by omega)).1 hkle
      have hsum : (o.offset + o.headerSize).toNat = o.offset.toNat + o.headerSize.toNat := by
        rw [UInt64.toNat_add, Nat.mod_eq_of_lt (by omega)]
      have hst' : st = o.offset.toNat + o.headerSize.toNat := by
        unfold RawTagOffset.valueStart RawTagOffset.valueOffset at hst
        rw [addU64_ok (by omega)] at hst
        rw [← hsum]
        exact (Res.ok.inj hst).symm
      rw [hst'] at h4
      have hlies : LiesAt k' u raw := by
        obtain ⟨a', b', hval, hoff'⟩ := hku.place
        refine ⟨h1.trans hku.id, by rw [h2, hku.header], by rw [h3, hku.value], ?_⟩
        obtain ⟨hd, hhd⟩ : ∃ hd, enc (.seq id ts) = hd ++ encValue (.seq id ts) := by
          rw [enc_eq]; unfold wrap; exact ⟨_, rfl⟩
        refine ⟨a ++ hd ++ a', b' ++ b, ?_, ?_⟩
        · rw [hraw, hhd, hev, hval]; simp
        · rw [h4, hoff, ho.header, hhd, hoff']
          simp only [List.length_append]
          omega
      obtain ⟨o', ho1, ho2, ho3⟩ := ih k' u c (fun w hw => hl w (.seq hmem hw)) hlies hc
      have hstart : o'.offset.toNat = o.offset.toNat + startOf (.seq id ts) (i :: path) := by
        rw [ho3, h4, hkoff, ho.header]
        have hst : startOf (.seq id ts) (i :: path) = ((enc (.seq id ts)).length - (encValue (.seq id ts)).length) +
            ((ts.take i).flatMap enc).length + startOf u path := by
          rw [startOf, hi]
        rw [hst]
        omega
      refine ⟨o', ?_, ho2, hstart⟩
      unfold descend
      rw [hv]
      show (nthIn m (ts.flatMap enc) i >>= fun child => child.mapToParentSpace m o >>= fun o' => descend m raw o' path) = _
      rw [hk]
      show (k.mapToParentSpace m o >>= fun o' => descend m raw o' path) = _
      rw [hk']
      exact ho1
    | _ => unfold childAt at hc; cases hc

/-- **C84** In the bytes of any tags written one after another, followed by anything, the caller reaches the tag the path
leads to, through any number of nested sequences: the offset found has its id, cuts its serialized form and its value
out of the bytes, and is where this tag begins (and not an equal one elsewhere). -/
theorem C84_locate (ts : List (Tag P)) (x : Bytes) (hlen : (ts.flatMap enc ++ x).length < 2 ^ 64)
    (hl : ∀ t ∈ ts, ∀ u, Within u t → StdLayout u) (i : Nat) (path : List Nat) (t c : Tag P) (ht : ts[i]? = some t)
    (hc : childAt t path = some c) :
    ∃ o, locate m (ts.flatMap enc ++ x) i path = .ok o ∧ o.id = c.id ∧
      o.tagSlice m (ts.flatMap enc ++ x) = .ok (enc c) ∧ o.valueSlice m (ts.flatMap enc ++ x) = .ok (encValue c) ∧
      o.offset.toNat = ((ts.take i).flatMap enc).length + startOf t path := by
  obtain ⟨o, h1, h2, h7⟩ := nthIn_ok (m := m) ts x (fun t ht => hl t ht t (.refl t)) hlen i t ht
  obtain ⟨o', h3, h4, h8⟩ := descend_ok (m := m) _ hlen path o t c (hl t (List.mem_of_getElem? ht)) h2 hc
  obtain ⟨h5, h6, -⟩ := h4.slices (m := m) hlen
  refine ⟨o', ?_, h4.id, h5, h6, by rw [h8, h7]⟩
  unfold locate
  rw [h1]
  exact h3

theorem scanNth_beyond {σ : Type} [Reader σ] (s s' : RawTagScanner σ) (os : List RawTagOffset) (h : ScanSeq m s os s')
    (he : ∃ e q, RawTagScanner.nextTag m s' = (.err e, q)) :
    ∀ i, os.length ≤ i → ∃ e, (scanNth m i s).1 = .err e := by
  induction h with
  | nil s =>
    intro i _
    obtain ⟨e, q, he⟩ := he
    refine ⟨e, ?_⟩
    cases i <;> unfold scanNth <;> rw [Act.bind_err he]
  | cons h1 _ ih =>
    intro i hi
    cases i with
    | zero => simp at hi
    | succ i =>
      obtain ⟨e, he⟩ := ih he i (by simpa using hi)
      refine ⟨e, ?_⟩
      unfold scanNth
      rw [Act.bind_ok h1]
      exact he

theorem descend_cons (raw : Bytes) (o : RawTagOffset) (i : Nat) (path : List Nat) :
    descend m raw o (i :: path) = (o.valueSlice m raw >>= fun v => nthIn m v i >>= fun k =>
      k.mapToParentSpace m o >>= fun o' => descend m raw o' path) := rfl

theorem Res.bind_assoc {ε α β γ : Type} (x : Res ε α) (f : α → Res ε β) (g : β → Res ε γ) :
    (x >>= f >>= g) = (x >>= fun a => f a >>= g) := by cases x <;> rfl

theorem descend_append (raw : Bytes) (o : RawTagOffset) (path path' : List Nat) :
    descend m raw o (path ++ path') = (descend m raw o path >>= fun o' => descend m raw o' path') := by
  induction path generalizing o with
  | nil => rfl
  | cons i path ih =>
    rw [List.cons_append, descend_cons, descend_cons]
    simp only [Res.bind_assoc, ih]

/-- What a path leads to lies within the tag. -/
theorem within_childAt {c : Tag P} : ∀ (path : List Nat) (t : Tag P), childAt t path = some c → Within c t := by
  intro path
  induction path with
  | nil =>
    intro t h
    have h : some t = some c := by unfold childAt at h; exact h
    cases h
    exact .refl _
  | cons k path ih =>
    intro t h
    cases t with
    | seq id ts =>
      unfold childAt at h
      rcases hk : ts[k]? with _ | v
      · rw [hk] at h; cases h
      · rw [hk] at h
        exact .seq (List.mem_of_getElem? hk) (ih v h)
    | _ => unfold childAt at h; cases h

theorem within_trans {a b c : Tag P} (h : Within a b) (h' : Within b c) : Within a c := by
  induction h' with
  | refl => exact h
  | seq hm _ ih => exact .seq hm ih
  | array hm _ ih => exact .array hm ih
  | dict hm _ ih => exact .dict hm ih

/-- **C84** A path that asks for a child a sequence does not have ends with an error, never with another tag. -/
theorem C84_no_such_child (ts : List (Tag P)) (x : Bytes) (hlen : (ts.flatMap enc ++ x).length < 2 ^ 64)
    (hl : ∀ t ∈ ts, ∀ u, Within u t → StdLayout u) (i : Nat) (path : List Nat) (t : Tag P) (id : UInt64)
    (cs : List (Tag P)) (ht : ts[i]? = some t) (hc : childAt t path = some (.seq id cs)) (j : Nat) (hj : cs.length ≤ j) :
    ∃ e, locate m (ts.flatMap enc ++ x) i (path ++ [j]) = .err e := by
  obtain ⟨o, h1, h2, -⟩ := nthIn_ok (m := m) ts x (fun t ht => hl t ht t (.refl t)) hlen i t ht
  obtain ⟨o', h3, h4, -⟩ := descend_ok (m := m) _ hlen path o t _ (hl t (List.mem_of_getElem? ht)) h2 hc
  obtain ⟨-, h6, hle⟩ := h4.slices (m := m) hlen
  have hev : encValue (.seq id cs) = cs.flatMap enc := by rw [encValue, encTags_eq]
  rw [hev] at h6
  have hvlen : (cs.flatMap enc).length < 2 ^ 64 := by
    have := h4.value
    rw [hev] at this
    omega
  have hcs : ∀ u ∈ cs, StdLayout u := fun u hu =>
    hl t (List.mem_of_getElem? ht) u (within_trans (.seq hu (.refl u)) (within_childAt path t hc))
  obtain ⟨s', hs, hs'⟩ := C56_scan (m := m) ByteArrayReader.view cs (ByteArrayReader.new (cs.flatMap enc)) []
    (by rw [List.append_nil]; exact ByteArrayReader.view_new _) hcs hvlen
  obtain ⟨e, q, hn, -⟩ := C59_end (m := m) ByteArrayReader.view ⟨UInt64.ofNat (cs.flatMap enc).length, s'⟩ hs'
  obtain ⟨e, he⟩ := scanNth_beyond _ _ _ hs ⟨_, q, hn⟩ j (by rw [positions_length]; exact hj)
  refine ⟨e, ?_⟩
  unfold locate
  rw [h1]
  show descend m _ o (path ++ [j]) = _
  rw [descend_append, h3]
  show descend m _ o' [j] = _
  unfold descend
  rw [h6]
  show (nthIn m (cs.flatMap enc) j >>= _) = _
  have he : nthIn m (cs.flatMap enc) j = .err e := he
  rw [he]
  rfl

/-- **C84** What is cut out is what `to_bytes` gives for that tag, and a factory that supports the outer tags reads it
back as that tag. -/
theorem C84_read [Env] (hr : MemoryOk) (e : Engine P) (ts : List (Tag P)) (bss : List Bytes)
    (hts : ∀ t ∈ ts, MapsOk t ∧ PayloadsOk t ∧ Supported e t) (hb : ts.map Tag.toBytes = bss.map .ok) (x : Bytes)
    (hlen : (bss.flatten ++ x).length < 2 ^ 64) (hl : ∀ t ∈ ts, ∀ u, Within u t → StdLayout u)
    (i : Nat) (path : List Nat) (t c : Tag P) (ht : ts[i]? = some t) (hc : childAt t path = some c) :
    ∃ o bs c', locate m (bss.flatten ++ x) i path = .ok o ∧ o.tagSlice m (bss.flatten ++ x) = .ok bs ∧
      c.toBytes = .ok bs ∧ Factory.fromBytes e bs = .ok c' ∧ Same c c' := by
  have henc : ∀ t ∈ ts, t.toBytes = .ok (enc t) := fun t ht => by
    obtain ⟨h1, h2, h3⟩ := hts t ht
    exact toBytes_eq_enc hr h1 h2 h3
  have hflat : bss.flatten = ts.flatMap enc := by
    clear hts hl ht hlen
    induction ts generalizing bss with
    | nil =>
      cases bss with
      | nil => rfl
      | cons b bs => simp at hb
    | cons t ts ih =>
      cases bss with
      | nil => simp at hb
      | cons b bs =>
        simp only [List.map_cons, List.cons.injEq] at hb
        have h1 := henc t (List.mem_cons_self ..)
        rw [hb.1, Res.ok.injEq] at h1
        rw [List.flatten_cons, List.flatMap_cons, ih bs hb.2 (fun u hu => henc u (List.mem_cons_of_mem _ hu)), h1]
  rw [hflat] at hlen ⊢
  obtain ⟨o, h1, -, h2, -⟩ := C84_locate (m := m) ts x hlen hl i path t c ht hc
  obtain ⟨hm, hp, hs⟩ := hts t (List.mem_of_getElem? ht)
  have hw := within_childAt path t hc
  have hm' : MapsOk c := fun u hu => hm u (within_trans hu hw)
  have hp' : PayloadsOk c := fun id p hu => hp id p (within_trans hu hw)
  have hs' : Supported e c := fun u hu => hs u (within_trans hu hw)
  obtain ⟨bs, c', h3, h4, h5⟩ := C30_round_trip hr e c hm' hp' hs'
  rw [toBytes_eq_enc hr hm' hp' hs', Res.ok.injEq] at h3
  subst h3
  exact ⟨o, _, c', h1, h2, toBytes_eq_enc hr hm' hp' hs', h4, h5⟩

theorem stdTag_layout {strict : Bool} {u : Tag P} (h : StdTag strict u) : StdLayout u := by
  rcases h with h | ⟨-, -, h, -⟩
  · by_cases h16 : 16 ≤ u.id.toNat
    · exact .inl h16
    by_cases h10 : u.id.toNat = 10 ∨ u.id.toNat = 14
    · refine .inr (.inl ⟨h10, ?_⟩)
      rcases u with a | _ | _ | _
      · cases a <;> simp only [Tag.kind, Atom.kind, standardId, Option.some.injEq, reduceCtorEq] at h <;>
          first
          | (exfalso; omega)
          | skip
        · exact ⟨_, rfl⟩
        · rename_i id v
          refine ⟨ILInt.encodeSign v, ?_⟩
          rw [ILInt.encodeSign_eq]
          rfl
      all_goals (simp only [Tag.kind, standardId, Option.some.injEq] at h; omega)
    · have h15 : u.id.toNat ≠ 15 := by
        intro hx
        rw [hx] at h
        revert h
        cases u.kind <;> simp [standardId]
      rcases std_sized h (by omega) with hs | ⟨hs, -⟩
      · exact .inr (.inr ⟨by omega, by omega, by omega, hs⟩)
      · rcases hs with hs | hs <;> rw [hs] at h10 <;> exact absurd (by decide) h10
  · exact .inl h

/-- **C84** With the standard factory, strict or not, for tags made of the standard types under their standard ids. -/
theorem C84_standard [Env] (hr : MemoryOk) (strict : Bool) (ts : List (Tag P)) (bss : List Bytes)
    (hts : ∀ t ∈ ts, MapsOk t ∧ ∀ u, Within u t → StdTag strict u ∧ (encValue u).length ≤ maxValue)
    (hb : ts.map Tag.toBytes = bss.map .ok) (x : Bytes) (hlen : (bss.flatten ++ x).length < 2 ^ 64)
    (i : Nat) (path : List Nat) (t c : Tag P) (ht : ts[i]? = some t) (hc : childAt t path = some c) :
    ∃ o bs c', locate m (bss.flatten ++ x) i path = .ok o ∧ o.tagSlice m (bss.flatten ++ x) = .ok bs ∧
      c.toBytes = .ok bs ∧ Factory.fromBytes (Engine.std strict) bs = .ok c' ∧ Same c c' :=
  C84_read hr _ ts bss (fun t ht => ⟨(hts t ht).1, (fun id p hu => by
      rcases ((hts t ht).2 _ hu).1 with h | ⟨-, h, -⟩
      · simp [Tag.kind, Atom.kind, standardId] at h
      · simp [Tag.kind, Atom.kind] at h), std_supported (hts t ht).2⟩) hb x hlen
    (fun t ht u hu => stdTag_layout ((hts t ht).2 u hu).1) i path t c ht hc

/-- Non-vacuity: three levels of sequences among other tags. -/
def deepSample : List (Tag Empty) :=
  [.atom (.bool 1 true), .seq 22 [.atom (.string 17 "ab"), .seq 22 [.atom (.null 0), .atom (.ilint 10 300),
    .seq 22 [.atom (.raw 1000 [1, 2, 3])]], .atom (.null 0)]]
example : ((deepSample[1]?).bind (childAt · [1, 2, 0])).map enc = some [0xF9, 2, 0xF0, 3, 1, 2, 3] := by decide +kernel
example : ((locate .checked (deepSample.flatMap enc) 1 [1, 2, 0]).map fun o => (o.offset, o.headerSize, o.valueSize)) =
    .ok (16, 4, 3) := by decide +kernel
example : (locate .checked (deepSample.flatMap enc) 1 [1, 3]).isOk = false := by decide +kernel
example : ∀ t ∈ deepSample, ∀ u, Within u t → StdTag false u ∧ (encValue u).length ≤ maxValue := by
  have h : ∀ t ∈ deepSample, ∀ u ∈ nested t, (standardId u.kind = some u.id.toNat ∨ u.kind = .raw ∧ 1000 = u.id.toNat) ∧
      (encValue u).length ≤ maxValue := by decide +kernel
  intro t ht u hu
  obtain ⟨h1 | ⟨h1, h2⟩, h3⟩ := h t ht u (Within.mem_nested hu)
  · exact ⟨.inl h1, h3⟩
  · refine ⟨.inr ⟨rfl, h1, by omega, fun k => ?_⟩, h3⟩
    rw [← h2]
    cases k <;> decide

end
end Verif.Props
