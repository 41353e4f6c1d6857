import Verif.Proof.Shuffle
import Verif.Props.Canonical
import Verif.Proof.Deliver
/-!
# C106: what a change of bytes can do
-/
namespace Verif.Props
open Verif Verif.Spec

section
variable {P : Type} [TagPayload P] [Env]

/-- **C106** Bytes that are accepted are at least as long as what their tag serializes to; if they are not longer they are
the same bytes, at most the entries of dictionaries being in another order. -/
theorem C106_same_length (hr : MemoryOk) (strict : Bool) (bs c : Bytes) (t : Tag P)
    (h : Factory.fromBytes (Engine.std strict) bs = .ok t) (hc : t.toBytes = .ok c) (hl : bs.length ≤ c.length) :
    Shuffled t bs ∧ ((∀ u, Within u t → AtMostOneEntry u) → bs = c) := by
  obtain ⟨hm, hs⟩ := C35_accepted_tags strict bs t h
  obtain ⟨k, hf⟩ := C77_sound hr strict bs t h
  have hp : PayloadsOk t := by
    intro id p hu
    rcases (hs _ hu).1 with h | ⟨-, h, -⟩
    · simp [Tag.kind, Atom.kind, standardId] at h
    · simp [Tag.kind, Atom.kind] at h
  rw [toBytes_eq_enc hr hm hp (std_supported hs)] at hc
  have hc : enc t = c := by injection hc
  subst hc
  exact ⟨formAt_shuffled k t bs strict hf hl, ((Snug.formAt k _ t bs strict hf fun d => d).2 hl).2⟩

/-- **C106** And exactly these: among the byte strings that are not longer than the serialization of a tag, those read as
a tag of the same content are the serialization and its variants with entries of dictionaries in another order. -/
theorem C106_exactly (hr : MemoryOk) (strict : Bool) (bs c : Bytes) (t : Tag P)
    (h : Factory.fromBytes (Engine.std strict) c = .ok t) (hc : t.toBytes = .ok c) :
    (bs.length ≤ c.length ∧ ∃ t', Factory.fromBytes (Engine.std strict) bs = .ok t' ∧ Same t' t) ↔ Shuffled t bs := by
  obtain ⟨hm, hs⟩ := C35_accepted_tags strict c t h
  have hp : PayloadsOk t := by
    intro id p hu
    rcases (hs _ hu).1 with h | ⟨-, h, -⟩
    · simp [Tag.kind, Atom.kind, standardId] at h
    · simp [Tag.kind, Atom.kind] at h
  rw [toBytes_eq_enc hr hm hp (std_supported hs)] at hc
  have hc : enc t = c := by injection hc
  subst hc
  constructor
  · rintro ⟨hl, t', h1, h2⟩
    obtain ⟨k, hf⟩ := (C77_language hr strict bs t).mpr ⟨hm, t', h1, h2⟩
    exact formAt_shuffled k t bs strict hf hl
  · intro hx
    obtain ⟨k, hk⟩ := shuffled_form strict t hm hs
    exact ⟨Nat.le_of_eq (shuffled_perm hx).length_eq, C77_complete hr strict bs t ⟨k, hk bs hx⟩⟩

/-- **C106** A change that keeps the length, of the bytes a tag serializes to, is never without effect unless it only
moves bytes: the changed bytes are refused or read as a tag with another content. -/
theorem C106_replaced (hr : MemoryOk) (strict strict' : Bool) (bs bs' : Bytes) (t t' : Tag P)
    (h : Factory.fromBytes (Engine.std strict) bs = .ok t) (hc : t.toBytes = .ok bs) (hl : bs'.length = bs.length)
    (h' : Factory.fromBytes (Engine.std strict') bs' = .ok t') (hs : Same t t') : bs'.Perm bs := by
  have hb : ∀ {strict : Bool} {bs : Bytes} {t : Tag P}, Factory.fromBytes (Engine.std strict) bs = .ok t →
      MapsOk t ∧ t.toBytes = .ok (enc t) := by
    intro strict bs t h
    obtain ⟨hm, hs⟩ := C35_accepted_tags strict bs t h
    have hp : PayloadsOk t := by
      intro id p hu
      rcases (hs _ hu).1 with h | ⟨-, h, -⟩
      · simp [Tag.kind, Atom.kind, standardId] at h
      · simp [Tag.kind, Atom.kind] at h
    exact ⟨hm, toBytes_eq_enc hr hm hp (std_supported hs)⟩
  obtain ⟨hm, h1⟩ := hb h
  obtain ⟨hm', h2⟩ := hb h'
  rw [h1] at hc
  rw [← hs.enc_eq hm hm'] at h2
  have h2 : t'.toBytes = .ok bs := h2.trans hc
  have hp := shuffled_perm (C106_same_length hr strict' bs' bs t' h' h2 (by omega)).1
  rw [← hs.enc_eq hm hm'] at hp
  have : enc t = bs := by injection hc
  rwa [this] at hp

theorem set_not_perm {bs : Bytes} {i : Nat} {b : Byte} (hi : i < bs.length) (hb : bs[i] ≠ b) :
    ¬ (bs.set i b).Perm bs := by
  intro hp
  have h1 : bs.set i b = bs.take i ++ b :: bs.drop (i + 1) := List.set_eq_take_append_cons_drop ▸ by simp [hi]
  have h2 : bs = bs.take i ++ bs[i] :: bs.drop (i + 1) := by simp
  have := hp.count_eq b
  rw [h1, List.count_append, List.count_cons_self] at this
  conv at this => rhs; rw [h2]
  rw [List.count_append, List.count_cons_of_ne hb] at this
  omega

/-- **C106** In particular no single byte of what a tag serializes to can be replaced by another one without effect. -/
theorem C106_one_byte (hr : MemoryOk) (strict strict' : Bool) (bs : Bytes) (t t' : Tag P)
    (h : Factory.fromBytes (Engine.std strict) bs = .ok t) (hc : t.toBytes = .ok bs) (i : Nat) (b : Byte)
    (hi : i < bs.length) (hb : bs[i] ≠ b) (h' : Factory.fromBytes (Engine.std strict') (bs.set i b) = .ok t') :
    ¬ Same t t' := fun hs =>
  set_not_perm hi hb (C106_replaced hr strict strict' bs (bs.set i b) t t' h hc (by simp) h' hs)

/-- **C106** Nothing more holds of a log: whatever tags the content of a byte array spells (247 bytes at most, so that
its size is one byte), replacing that one byte makes a log of this tag alone a log that is read without an error as an
empty byte array and these tags. -/
theorem C106_log (hr : MemoryOk) (strict : Bool) (ts : List (Tag P)) (bss : List Bytes)
    (hts : ∀ t ∈ ts, MapsOk t ∧ PayloadsOk t ∧ Supported (Engine.std strict) t) (hb : ts.map Tag.toBytes = bss.map .ok)
    (hl : bss.flatten.length ≤ 247) :
    ∃ log : Bytes, (Tag.atom (.byteArray bss.flatten) : Tag P).toBytes = .ok log ∧
      ∃ us s', ReadSeq (Engine.std strict : Engine P) (ByteArrayReader.new (log.set 1 0)) us s' ∧
        us.length = ((.atom (.byteArray []) : Tag P) :: ts).length ∧
        (∀ (i : Nat) (h : i < ((.atom (.byteArray []) : Tag P) :: ts).length) (h' : i < us.length),
          Same ((.atom (.byteArray []) : Tag P) :: ts)[i] us[i]) ∧
        ByteArrayReader.view.R s' [] := by
  have hok : ∀ v : Bytes, v.length ≤ 247 → MapsOk (.atom (.byteArray v) : Tag P) ∧
      PayloadsOk (.atom (.byteArray v) : Tag P) ∧ Supported (Engine.std strict) (.atom (.byteArray v) : Tag P) ∧
      (.atom (.byteArray v) : Tag P).toBytes = .ok (16 :: UInt8.ofNat v.length :: v) := by
    intro v hv
    have hw : ∀ u : Tag P, Within u (.atom (.byteArray v)) → u = .atom (.byteArray v) := by
      rintro u (_ | _); rfl
    have h1 : MapsOk (.atom (.byteArray v) : Tag P) := fun u hu => by rw [hw u hu]; trivial
    have h2 : PayloadsOk (.atom (.byteArray v) : Tag P) := fun id p hu => by cases hw _ hu
    have h3 : Supported (Engine.std strict) (.atom (.byteArray v) : Tag P) := std_supported fun u hu => by
      rw [hw u hu]
      refine ⟨.inl rfl, ?_⟩
      show v.length ≤ maxValue
      have : maxValue = 536870912 := rfl
      omega
    refine ⟨h1, h2, h3, ?_⟩
    rw [toBytes_eq_enc hr h1 h2 h3]
    have : Spec.ilint v.length = [UInt8.ofNat v.length] := by
      unfold Spec.ilint; rw [if_pos (by omega)]
    show Res.ok (Spec.ilint 16 ++ Spec.ilint v.length ++ v) = _
    rw [this]
    rfl
  obtain ⟨-, -, -, hlog⟩ := hok bss.flatten hl
  obtain ⟨h1, h2, h3, h4⟩ := hok [] (by simp)
  refine ⟨_, hlog, ?_⟩
  refine C31_lists hr (Engine.std strict) (.atom (.byteArray []) :: ts) ([16, 0] :: bss) ?_ ?_
    ByteArrayReader.view.toView _ [] ?_
  · intro t ht
    rcases List.mem_cons.mp ht with rfl | ht
    · exact ⟨h1, h2, h3⟩
    · exact hts t ht
  · rw [List.map_cons, List.map_cons, h4, hb]; rfl
  · rw [List.append_nil]
    exact ByteArrayReader.view_new _

end

attribute [local instance] bigEnv

/-! Non-vacuity.  The same entries in another order; a byte changed: refused, or another content. -/

/-- What `from_bytes` makes of the bytes of a string dictionary. -/
def strEntries (bs : Bytes) : Option (UInt64 × List (String × String)) :=
  match Factory.fromBytes (Engine.std true : Engine Empty) bs with
  | .ok (.atom (.strDict id es)) => some (id, es)
  | _ => none

example : strEntries [31, 13, 2, 17, 1, 65, 17, 1, 66, 17, 1, 67, 17, 1, 68] = some (31, [("A", "B"), ("C", "D")]) ∧
    strEntries [31, 13, 2, 17, 1, 67, 17, 1, 68, 17, 1, 65, 17, 1, 66] = some (31, [("C", "D"), ("A", "B")]) ∧
    strEntries [31, 13, 2, 17, 1, 65, 17, 1, 66, 17, 1, 67, 17, 1, 69] = some (31, [("A", "B"), ("C", "E")]) ∧
    strEntries [31, 13, 2, 17, 1, 65, 17, 1, 66, 17, 2, 67, 17, 1, 69] = none := by
  unfold strEntries Factory.fromBytes
  rw [deserialize_eq]
  decide +kernel

theorem of_entries {bs : Bytes} {id : UInt64} {es : List (String × String)} (h : strEntries bs = some (id, es)) :
    Factory.fromBytes (Engine.std true : Engine Empty) bs = .ok (.atom (.strDict id es)) := by
  unfold strEntries at h
  split at h
  · next heq => cases h; exact heq
  · simp at h

/-! The entries of a dictionary exchanged: another byte string of the same length with the same content. -/
example : Shuffled (.atom (.strDict 31 [("A", "B"), ("C", "D")]) : Tag Empty)
    [31, 13, 2, 17, 1, 67, 17, 1, 68, 17, 1, 65, 17, 1, 66] :=
  ⟨[2, 17, 1, 67, 17, 1, 68, 17, 1, 65, 17, 1, 66],
    ⟨[[17, 1, 67, 17, 1, 68], [17, 1, 65, 17, 1, 66]], by decide +kernel, by decide +kernel⟩, by decide +kernel⟩

/-! A byte array that spells the tag `[3, 7]`: its log, the size replaced by 0, is read as two tags. -/
example : ∃ log : Bytes, (Tag.atom (.byteArray [3, 7]) : Tag Empty).toBytes = .ok log ∧
    ∃ us s', ReadSeq (Engine.std true : Engine Empty) (ByteArrayReader.new (log.set 1 0)) us s' ∧ us.length = 2 := by
  have hw : ∀ u : Tag Empty, Within u (.atom (.uint8 3 7)) → u = .atom (.uint8 3 7) := by rintro u (_ | _); rfl
  have h3 : Supported (Engine.std true) (.atom (.uint8 3 7) : Tag Empty) :=
    std_supported fun u hu => by rw [hw u hu]; exact ⟨.inl rfl, by decide⟩
  have h1 : MapsOk (.atom (.uint8 3 7) : Tag Empty) := fun u hu => by rw [hw u hu]; trivial
  have h2 : PayloadsOk (.atom (.uint8 3 7) : Tag Empty) := fun id p hu => by cases hw _ hu
  obtain ⟨log, hl, us, s', h, hlen, -⟩ := C106_log bigEnv_ok true ([.atom (.uint8 3 7)] : List (Tag Empty)) [[3, 7]]
    (fun t ht => by rw [List.mem_singleton.mp ht]; exact ⟨h1, h2, h3⟩)
    (by simp only [List.map_cons, List.map_nil, toBytes_eq_enc bigEnv_ok h1 h2 h3]; rfl) (by decide)
  exact ⟨log, hl, us, s', h, hlen⟩

/-- **C106** Of bytes that are accepted but not canonical a byte may well be replaced without effect: here the value of
an entry that is overwritten by the next one. -/
theorem C106_hidden : ∃ (bs : Bytes) (i : Nat) (b : Byte) (t : Tag Empty), i < bs.length ∧ bs[i]? ≠ some b ∧
    Factory.fromBytes (Engine.std true) bs = .ok t ∧ Factory.fromBytes (Engine.std true) (bs.set i b) = .ok t := by
  have h : ∀ bs ∈ ([[31, 13, 2, 17, 1, 65, 17, 1, 66, 17, 1, 65, 17, 1, 68],
      [31, 13, 2, 17, 1, 65, 17, 1, 70, 17, 1, 65, 17, 1, 68]] : List Bytes), strEntries bs = some (31, [("A", "D")]) := by
    unfold strEntries Factory.fromBytes
    rw [deserialize_eq]
    decide +kernel
  refine ⟨[31, 13, 2, 17, 1, 65, 17, 1, 66, 17, 1, 65, 17, 1, 68], 8, 70, .atom (.strDict 31 [("A", "D")]), by decide,
    by decide, of_entries (h _ (by simp)), of_entries (h _ (by simp))⟩

end Verif.Props
