import Verif.Proof.Client
import Verif.Props.Equality
/-!
# C128: tags of the same content cannot be told apart
-/
namespace Verif.Props
open Verif Verif.Spec
variable {P : Type}
set_option linter.unusedSectionVars false

section
variable [TagPayload P] [Env]

theorem store_mates {x y : Store P} : StoreMates x y ↔ SameStore x y ∧ StoreOk x ∧ StoreOk y :=
  ⟨fun h => ⟨fun i => (h i).1, fun i => (h i).2.1, fun i => (h i).2.2⟩, fun h i => ⟨h.1 i, h.2.1 i, h.2.2 i⟩⟩

/-- **C128** Two runs of a program, of any length and however it goes on from the answers it gets, that start with tags of
the same content in their variables are given the same answers to all calls, and hold tags of the same content in the end. -/
theorem C128_programs (e : Engine P) (prog : Client P) (x y : Store P) (h : SameStore x y) (hx : StoreOk x) (hy : StoreOk y) :
    (prog.run e x).1 = (prog.run e y).1 ∧ SameStore (prog.run e x).2 (prog.run e y).2 ∧ StoreOk (prog.run e x).2 ∧
      StoreOk (prog.run e y).2 := by
  obtain ⟨h1, h2⟩ := run_mates e prog (store_mates.mpr ⟨h, hx, hy⟩)
  exact ⟨h1, store_mates.mp h2⟩

/-! ### Programs that look at a tag -/

/-- Some tags to start with. -/
def blank : Store P := fun _ => .atom (.null 0)

theorem blank_ok : StoreOk (blank : Store P) := fun _ => mapsOk_atom (by simp [blank, Atom.kind])

theorem set_set (x : Store P) (i : Nat) (t u : Tag P) : (x.set i t).set i u = x.set i u := by
  funext j
  unfold Store.set
  split <;> rfl

theorem set_self (x : Store P) (i : Nat) (t : Tag P) : (x.set i t) i = t := by simp [Store.set]

theorem answer_eq {e : Engine P} {t u : Tag P} (h : Indistinguishable e t u) (c : Call P) :
    (c.step e (blank.set 0 t)).1 = (c.step e (blank.set 0 u)).1 :=
  (List.cons.inj (h blank 0 (.call c fun _ => .stop) blank_ok)).1

theorem told_kind {e : Engine P} {t u : Tag P} (h : Indistinguishable e t u) : t.kind = u.kind :=
  Ans.kind.inj (answer_eq h (.kind 0))

theorem told_id {e : Engine P} {t u : Tag P} (h : Indistinguishable e t u) : t.id = u.id :=
  UInt64.toNat_inj.mp (Ans.number.inj (answer_eq h (.id 0)))

theorem told_value {e : Engine P} {t u : Tag P} (h : Indistinguishable e t u) : t.plainValue = u.plainValue :=
  Ans.value.inj (answer_eq h (.value 0))

theorem told_text {e : Engine P} {t u : Tag P} (h : Indistinguishable e t u) (k : String) : t.text k = u.text k :=
  Ans.text.inj (answer_eq h (.getText 0 k))

/-- A part that a call brings into the variable cannot be told apart either. -/
theorem told_part {e : Engine P} {t u : Tag P} (h : Indistinguishable e t u) (c : Nat → Call P) (part : Tag P → Option (Tag P))
    (hc : ∀ x i, (c i).step e x = x.keepFound i (part (x i))) :
    (part t = none ∧ part u = none) ∨ ∃ v w, part t = some v ∧ part u = some w ∧ Indistinguishable e v w := by
  have h0 := answer_eq h (c 0)
  rw [hc, hc, set_self, set_self] at h0
  cases ht : part t with
  | none =>
    cases hu : part u with
    | none => exact .inl ⟨rfl, rfl⟩
    | some w => rw [ht, hu] at h0; cases h0
  | some v =>
    cases hu : part u with
    | none => rw [ht, hu] at h0; cases h0
    | some w =>
      refine .inr ⟨v, w, rfl, rfl, fun x i prog hx => ?_⟩
      have h1 := h x i (.call (c i) fun _ => prog) hx
      simp only [Client.run, hc, set_self, ht, hu, Store.keepFound, set_set] at h1
      exact (List.cons.inj h1).2

theorem same_of_told {e : Engine P} (t : Tag P) : ∀ u, MapsOk t → MapsOk u → Indistinguishable e t u → Same t u := by
  induction t using Tag.ind with
  | atom a =>
    intro u ht hu h
    by_cases ha : a.kind = .strDict
    · cases a <;> simp only [Atom.kind, reduceCtorEq] at ha
      rename_i id es
      have hk := told_kind h
      cases u with
      | atom b =>
        cases b <;> simp only [Tag.kind, Atom.kind, reduceCtorEq] at hk
        rename_i id' fs
        have hid : id = id' := told_id h
        subst hid
        exact (mates_strDict.mpr ⟨mapsOk_strDict_iff.mp ht, mapsOk_strDict_iff.mp hu, told_text h⟩).1
      | _ => simp [Tag.kind, Atom.kind] at hk
    · have hv := told_value h
      have hp : (Tag.atom a).plainValue = some a := by cases a <;> first | rfl | exact absurd rfl ha
      rw [hp] at hv
      cases u with
      | atom b =>
        have hb : a = b := by
          cases b <;> simp only [Tag.plainValue, Option.some.injEq, reduceCtorEq] at hv <;> exact hv
        rw [hb]
        exact .atom b
      | _ => simp [Tag.plainValue] at hv
  | seq id ts ih =>
    intro u ht hu h
    have hk := told_kind h
    cases u with
    | seq id' us =>
      have hid : id = id' := told_id h
      subst hid
      refine (mates_seq.mpr fun n => ?_).1
      rcases told_part h (fun i => .item i n i) (Tag.item n) (fun _ _ => rfl) with ⟨h1, h2⟩ | ⟨v, w, h1, h2, h3⟩
      · rw [show ts[n]? = none from h1, show us[n]? = none from h2]
        exact .none
      · have hv := List.mem_of_getElem? h1
        have hw := List.mem_of_getElem? h2
        rw [show ts[n]? = some v from h1, show us[n]? = some w from h2]
        exact .some ⟨ih v hv w (ht.of (within_seq hv)) (hu.of (within_seq hw)) h3, ht.of (within_seq hv), hu.of (within_seq hw)⟩
    | atom b => cases b <;> simp [Tag.kind, Atom.kind] at hk
    | _ => simp [Tag.kind] at hk
  | array id ts ih =>
    intro u ht hu h
    have hk := told_kind h
    cases u with
    | array id' us =>
      have hid : id = id' := told_id h
      subst hid
      refine (mates_array.mpr fun n => ?_).1
      rcases told_part h (fun i => .item i n i) (Tag.item n) (fun _ _ => rfl) with ⟨h1, h2⟩ | ⟨v, w, h1, h2, h3⟩
      · rw [show ts[n]? = none from h1, show us[n]? = none from h2]
        exact .none
      · have hv := List.mem_of_getElem? h1
        have hw := List.mem_of_getElem? h2
        rw [show ts[n]? = some v from h1, show us[n]? = some w from h2]
        exact .some ⟨ih v hv w (ht.of (within_array hv)) (hu.of (within_array hw)) h3, ht.of (within_array hv),
          hu.of (within_array hw)⟩
    | atom b => cases b <;> simp [Tag.kind, Atom.kind] at hk
    | _ => simp [Tag.kind] at hk
  | dict id es ih =>
    intro u ht hu h
    have hk := told_kind h
    cases u with
    | dict id' fs =>
      have hid : id = id' := told_id h
      subst hid
      refine (mates_dict.mpr ⟨ht.self, hu.self, fun k => ?_⟩).1
      rcases told_part h (fun i => .get i k i) (Tag.entry k) (fun _ _ => rfl) with ⟨h1, h2⟩ | ⟨v, w, h1, h2, h3⟩
      · rw [show HMap.get k es = none from h1, show HMap.get k fs = none from h2]
        exact .none
      · have hv := HMap.mem_of_get h1
        have hw := HMap.mem_of_get h2
        rw [show HMap.get k es = some v from h1, show HMap.get k fs = some w from h2]
        exact .some ⟨ih k v hv w (ht.of (within_dict hv)) (hu.of (within_dict hw)) h3, ht.of (within_dict hv),
          hu.of (within_dict hw)⟩
    | atom b => cases b <;> simp [Tag.kind, Atom.kind] at hk
    | _ => simp [Tag.kind] at hk

theorem told_of_same {e : Engine P} {t u : Tag P} (ht : MapsOk t) (hu : MapsOk u) (h : Same t u) : Indistinguishable e t u := by
  intro x i prog hx
  have hs : StoreMates x x := fun j => .refl (hx j)
  exact (run_mates e prog (hs.set i ⟨h, ht, hu⟩)).1

/-- **C128** Same content is just what programs can see of a tag: two tags have the same content if and only if no program,
with any factory and whatever else it holds, is ever given another answer because it has the one instead of the other. -/
theorem C128_exactly (e : Engine P) (t u : Tag P) (ht : MapsOk t) (hu : MapsOk u) : Same t u ↔ Indistinguishable e t u :=
  ⟨told_of_same ht hu, same_of_told t u ht hu⟩

/-- **C128** What comes back from the bytes of a supported tag is as good as the tag itself: no program that has it instead
of the original, with whatever factory `e'`, ever notices. -/
theorem C128_read_back (hr : MemoryOk) (e e' : Engine P) (t : Tag P) (hm : MapsOk t) (hp : PayloadsOk t) (hs : Supported e t) :
    ∃ bs u, t.toBytes = .ok bs ∧ Factory.fromBytes e bs = .ok u ∧ tagCloneWithFactory e t = .ok u ∧ Indistinguishable e' t u := by
  obtain ⟨bs, u, h1, h2, h3⟩ := C30_round_trip hr e t hm hp hs
  refine ⟨bs, u, h1, h2, ?_, told_of_same hm (fromBytes_maps e h2) h3⟩
  unfold tagCloneWithFactory
  rw [h1]
  exact h2

/-- **C128** Whatever a factory with any creators reads from bytes has proper maps: no two entries under one key. -/
theorem C128_maps (e : Engine P) (bs : Bytes) (t : Tag P) (h : Factory.fromBytes e bs = .ok t) : MapsOk t := fromBytes_maps e h

end

/-- **C128** Tags of the same content have the same sizes and are the same calls to every writer, with the same outcome:
payloads that break their contract, sizes of 2^64 bytes and more and writers that fail not excepted. -/
theorem C128_writers [TagPayload P] (t u : Tag P) (h : Same t u) (ht : MapsOk t) (hu : MapsOk u) :
    t.size = u.size ∧ t.valueSize = u.valueSize ∧
    ∀ (ω : Type) [Writer ω] (w : ω), t.serialize w = u.serialize w ∧ t.serializeValue w = u.serializeValue w :=
  ⟨h.size_eq ht hu, h.valueSize_eq ht hu, fun ω _ w =>
    ⟨congrFun (h.serialize_eq (ω := ω) ht hu) w, congrFun (h.serializeValue_eq (ω := ω) ht hu) w⟩⟩

/-- **C128** `deserialize_into` over any reader: tags of the same content take the same bytes, have the same outcome and
have the same content afterwards, also where the call fails half-way. -/
theorem C128_readers [TagPayload P] [Env] (e : Engine P) {σ : Type} [Reader σ] (s : σ) (t u : Tag P) (h : Same t u)
    (ht : MapsOk t) (hu : MapsOk u) : ∃ r s' v w, Factory.deserializeInto e (t, s) = (r, (v, s')) ∧
      Factory.deserializeInto e (u, s) = (r, (w, s')) ∧ Same v w ∧ MapsOk v ∧ MapsOk w := by
  obtain ⟨r, s', v, w, hm, h1, h2⟩ := mates_into e ⟨h, ht, hu⟩ s
  exact ⟨r, s', v, w, h1, h2, hm⟩

/-! ### Examples -/
section examples
attribute [local instance] bigEnv

deriving instance DecidableEq for Atom, Ans

/-- A list of calls as a program. -/
def Client.ofList : List (Call Empty) → Client Empty
  | [] => .stop
  | c :: cs => .call c fun _ => Client.ofList cs

def byteOf (v : UInt8) : Atom Empty := .uint8 Id.uint8 v

/-- Every call that needs no factory does what the method does. -/
example : ((Client.ofList [.newSeq 0 22, .atom 1 (byteOf 5), .atom 2 (byteOf 6), .push 0 1, .push 0 2, .push 0 1, .len 0,
    .item 0 1 3, .value 3, .item 0 3 3, .setItem 0 0 2, .setItem 0 3 2, .removeItem 0 1, .removeItem 0 7, .bytes 0, .size 0,
    .valueSize 0, .kind 0, .id 0, .equal 1 3, .equal 2 3, .move 0 4, .clear 0, .len 0, .len 4, .len 1]).run (Engine.new true) blank).1 =
    [.done, .done, .done, .done, .done, .done, .count (some 3), .found true, .value (some (byteOf 6)), .found false, .found true,
      .found false, .found true, .found false, .bytes (.ok [22, 4, 3, 6, 3, 5]), .number 6, .number 4, .kind .seq, .number 22,
      .truth (.ok false), .truth (.ok true), .done, .done, .count (some 0), .count (some 2), .count none] := by decide +kernel

example : ((Client.ofList [.newDict 0 30, .atom 1 (byteOf 5), .atom 2 (byteOf 6), .insert 0 "b" 1, .insert 0 "a" 2, .insert 0 "b" 2,
    .len 0, .get 0 "b" 3, .value 3, .get 0 "c" 3, .remove 0 "a", .remove 0 "a", .bytes 0, .clear 0, .len 0]).run (Engine.new true) blank).1 =
    [.done, .done, .done, .found false, .found false, .found true, .count (some 2), .found true, .value (some (byteOf 6)), .found false,
      .found true, .found false, .bytes (.ok [30, 6, 1, 17, 1, 98, 3, 6]), .done, .count (some 0)] := by decide +kernel

example : ((Client.ofList [.atom 0 (.strDict 31 [("x", "y")]), .len 0, .insertText 0 "b" "1", .insertText 0 "b" "2", .getText 0 "b",
    .insertText 0 "a" "3", .removeText 0 "b", .getText 0 "b", .bytes 0, .value 0, .newArray 1 21, .push 1 0, .len 1, .item 1 0 2,
    .getText 2 "a", .bytes 1]).run (Engine.new true) blank).1 =
    [.done, .count (some 0), .text none, .text (some "1"), .text (some "2"), .text none, .text (some "2"), .text none,
      .bytes (.ok [31, 7, 1, 17, 1, 97, 17, 1, 51]), .value none, .done, .done, .count (some 1), .found true, .text (some "3"),
      .bytes (.ok [21, 10, 1, 31, 7, 1, 17, 1, 97, 17, 1, 51])] := by decide +kernel

example : ((Client.ofList [.atom 0 (byteOf 5), .into 0 [3, 9], .value 0, .into 0 [3], .into 0 [4, 9], .value 0]).run
    (Engine.new true) blank).1 = [.done, .outcome (.ok ()), .value (some (byteOf 9)), .outcome (.err (.ioError .endOfData)),
      .outcome (.err .unexpectedTagType), .value (some (byteOf 9))] := by decide +kernel

theorem sample'_maps : MapsOk sample' := mapsOk_of_B (by decide +kernel)

/-- The two listings of the sample, in any place of any program. -/
example (e : Engine Empty) : Indistinguishable e sample sample' := (C128_exactly e _ _ sample_maps sample'_maps).mp sample_same

example (e : Engine Empty) (prog : Client Empty) : (prog.run e fun _ => sample).1 = (prog.run e fun _ => sample').1 :=
  (C128_programs e prog _ _ (fun _ => sample_same) (fun _ => sample_maps) fun _ => sample'_maps).1

/-- The same values in another order are told apart, although all sizes agree. -/
example (e : Engine Empty) : ¬ Indistinguishable e (.seq 22 [.atom (byteOf 1), .atom (byteOf 2)])
    (.seq 22 [.atom (byteOf 2), .atom (byteOf 1)]) := by
  rw [← C128_exactly e _ _ (mapsOk_of_B (by decide +kernel)) (mapsOk_of_B (by decide +kernel))]
  intro h
  cases h with
  | seq _ _ h =>
    have h0 : Same (.atom (byteOf 1)) (.atom (byteOf 2)) := h 0 (by simp) (by simp)
    cases h0

/-- A raw tag with the bytes of a string tag is written alike but is told apart. -/
example (e : Engine Empty) : ¬ Indistinguishable e (.atom (.raw 17 [97])) (.atom (.string 17 "a")) ∧
    (.atom (.raw 17 [97]) : Tag Empty).toBytes = (.atom (.string 17 "a") : Tag Empty).toBytes := by
  refine ⟨fun h => ?_, by decide +kernel⟩
  have := told_kind h
  simp [Tag.kind, Atom.kind] at this

/-- A tag that is read back. -/
example (e' : Engine Empty) : ∃ bs u, Tag.toBytes (.seq 22 [.atom (byteOf 1), .atom (.string 17 "é")] : Tag Empty) = .ok bs ∧
    Factory.fromBytes (Engine.std true) bs = .ok u ∧ tagCloneWithFactory (Engine.std true) (.seq 22 [.atom (byteOf 1), .atom (.string 17 "é")]) = .ok u ∧
    Indistinguishable e' (.seq 22 [.atom (byteOf 1), .atom (.string 17 "é")]) u :=
  C128_read_back bigEnv_ok _ e' _ (mapsOk_of_B (by decide +kernel)) (sample_payloads _) (supported_of_B (by decide +kernel))

example : sample.size = sample'.size := (C128_writers _ _ sample_same sample_maps sample'_maps).1

/-- Reading into the two listings from a reader that ends too early. -/
example (e : Engine Empty) : ∃ r s' v w,
    Factory.deserializeInto e (sample, ByteArrayReader.new [30, 5, 1, 17]) = (r, (v, s')) ∧
    Factory.deserializeInto e (sample', ByteArrayReader.new [30, 5, 1, 17]) = (r, (w, s')) ∧ Same v w ∧ MapsOk v ∧ MapsOk w :=
  C128_readers e _ _ _ sample_same sample_maps sample'_maps

theorem text_read : Factory.fromBytes (Engine.std true) [17, 1, 97] = .ok (.atom (.string 17 "a") : Tag Empty) := by
  have h := top_enc bigEnv_ok (Engine.std true) (.atom (.string 17 "a") : Tag Empty) (mapsOk_of_B (by decide +kernel))
    (supported_of_B (by decide +kernel)) []
  rw [show enc (.atom (.string 17 "a") : Tag Empty) ++ [] = [17, 1, 97] by decide +kernel] at h
  exact (fromBytes_ok_iff _ _ _).mpr h

example : MapsOk (.atom (.string 17 "a") : Tag Empty) := C128_maps _ _ _ text_read

/-- Reading and cloning keep what was made. -/
example : ((Call.read 1 [17, 1, 97]).step (Engine.std true) (blank : Store Empty)) =
    (.outcome (.ok ()), blank.set 1 (.atom (.string 17 "a"))) := by
  simp only [Call.step, text_read, Store.keep]

example : ((Call.clone 2 1).step (Engine.std true) ((blank : Store Empty).set 2 (.atom (.string 17 "a")))) =
    (.outcome (.ok ()), (blank.set 2 (.atom (.string 17 "a"))).set 1 (.atom (.string 17 "a"))) := by
  have h : tagCloneWithFactory (Engine.std true) (.atom (.string 17 "a") : Tag Empty) = .ok (.atom (.string 17 "a")) := by
    unfold tagCloneWithFactory
    rw [show Tag.toBytes (.atom (.string 17 "a") : Tag Empty) = .ok [17, 1, 97] by decide +kernel]
    exact text_read
  simp only [Call.step, set_self, h, Store.keep]

end examples
end Verif.Props
