import Verif.Props.Data
import Verif.Props.Serialize
import Verif.Props.Readers
import Verif.Proof.Utf8
/-!
# C86: which bytes are text, and the order of keys
-/
namespace Verif.Props
open Verif Verif.Spec

variable {P : Type}

/-- **C86** `read_string(n)` succeeds exactly when the next `n` bytes are well-formed UTF-8 in the sense of the table
of the Unicode standard: then it gives the string they encode.  Otherwise the data is reported as corrupted. -/
theorem C86_read_string [Env] {σ : Type} [Reader σ] (V : View σ) (s : σ) (bs : Bytes) (n : Nat) (hR : V.R s bs)
    (hn : n ≤ bs.length) (ha : n ≤ Env.allocMax) :
    (Utf8Text (bs.take n) →
      ∃ str s', Data.readString n s = (.ok str, s') ∧ Spec.utf8 str = bs.take n ∧ V.R s' (bs.drop n)) ∧
    (¬ Utf8Text (bs.take n) → ∃ s', Data.readString n s = (.err .corruptedData, s') ∧ V.R s' (bs.drop n)) := by
  obtain ⟨h1, h2⟩ := C26_read_string V s bs n hR hn ha
  constructor
  · intro h
    obtain ⟨str, hs⟩ := (utf8Text_iff _).mp h
    obtain ⟨s', h, hr⟩ := h1 str hs
    exact ⟨str, s', h, hs, hr⟩
  · intro h
    exact h2 fun str hs => h ((utf8Text_iff _).mpr ⟨str, hs⟩)

/-- The value of a string tag. -/
theorem top_string [TagPayload P] [Env] (strict : Bool) (v : Bytes) (hn : v.length ≤ maxValue)
    (ha : v.length ≤ Env.allocMax) :
    Parser.top (Engine.std strict : Engine P) (Spec.ilint 17 ++ Spec.ilint v.length ++ v) =
      match fromUtf8 v with
      | some s => .ok (.atom (.string 17 s)) []
      | none => .fail .corruptedData := by
  have h64 : v.length < 2 ^ 64 := by unfold maxValue at hn; omega
  obtain ⟨t₀, hc, hk, hi⟩ := std_create (P := P) (strict := strict) (id := 17) (k := .string) rfl
  rw [top_eq, show Spec.ilint 17 = Spec.ilint (17 : UInt64).toNat from rfl, List.append_assoc,
    Parser.bind_ok (ilint_enc _ _), tagSize_explicit (by decide), Parser.bind_assoc,
    Parser.bind_ok (ilint_enc_nat h64 _), tagSizeToUsize_eq hn, Parser.lift_ok, Parser.pure_bind, hc, Parser.lift_ok,
    Parser.pure_bind]
  cases t₀ with
  | atom a =>
    cases a <;> simp [Tag.kind, Atom.kind] at hk
    simp only [Tag.id, Atom.id] at hi
    subst hi
    simp only [Parser.tagValueInto, Parser.limited, Nat.le_refl, if_true, Parser.tagValue, Parser.atomValue,
      Parser.bind_apply, List.take_length, Parser.utf8, Parser.bytes, Nat.one_mul, ha, Parser.take, List.drop_length]
    cases fromUtf8 v <;> rfl
  | array id ts => simp [Tag.kind] at hk
  | seq id ts => simp [Tag.kind] at hk
  | dict id ts => simp [Tag.kind] at hk

/-- **C86** A serialized string tag is accepted exactly when its value is well-formed UTF-8; any other value is
reported as corrupted data, never replaced or cut. -/
theorem C86_string_tag [TagPayload P] [Env] (strict : Bool) (v : Bytes) (hn : v.length ≤ maxValue)
    (ha : v.length ≤ Env.allocMax) :
    (Utf8Text v → ∃ s, Spec.utf8 s = v ∧
      Factory.fromBytes (Engine.std strict : Engine P) (Spec.ilint 17 ++ Spec.ilint v.length ++ v) =
        .ok (.atom (.string 17 s))) ∧
    (¬ Utf8Text v →
      Factory.fromBytes (Engine.std strict : Engine P) (Spec.ilint 17 ++ Spec.ilint v.length ++ v) =
        .err .corruptedData) := by
  have hf := fromBytes_cases (Engine.std strict : Engine P) (Spec.ilint 17 ++ Spec.ilint v.length ++ v)
  rw [top_string strict v hn ha] at hf
  constructor
  · intro h
    obtain ⟨s, hs⟩ := (utf8Text_iff _).mp h
    rw [fromUtf8_eq_some.mpr (by rw [utf8_eq]; exact hs)] at hf
    exact ⟨s, hs, by simpa using hf⟩
  · intro h
    rw [fromUtf8_eq_none.mpr (fun s => by rw [utf8_eq]; exact fun hs => h ((utf8Text_iff _).mpr ⟨s, hs⟩))] at hf
    exact hf

/-- **C86** What is written for a string is always well-formed, whatever the string. -/
theorem C86_written (str : String) : Utf8Text (Spec.utf8 str) := (utf8Text_iff _).mpr ⟨str, rfl⟩

/-- The numbers of the characters of a string. -/
def codePoints (s : String) : List Nat := s.toList.map Char.toNat

/-- **C86** The order of the bytes, in which keys are written, is the order of the characters' code points: `Z` before
`a`, and no locale or UTF-16 order. -/
theorem C86_order (a b : String) : Spec.utf8 a < Spec.utf8 b ↔ codePoints a < codePoints b := by
  unfold Spec.utf8 codePoints
  exact utf8_lt_iff a.toList b.toList

/-- **C86** The same for the strings inside dictionaries, which are read by `deserialize_string_tag_from_value`: from any
reader, whatever follows the string. -/
theorem C86_inner_string [Env] {σ : Type} [Reader σ] (V : View σ) (s : σ) (v rest : Bytes)
    (hR : V.R s (Spec.ilint 17 ++ Spec.ilint v.length ++ v ++ rest)) (hn : v.length ≤ maxValue)
    (ha : v.length ≤ Env.allocMax) :
    (Utf8Text v → ∃ str s', deserializeStringTag s = (.ok str, s') ∧ Spec.utf8 str = v ∧ V.R s' rest) ∧
    (¬ Utf8Text v → ∃ s', deserializeStringTag s = (.err .corruptedData, s')) := by
  have h64 : v.length < 2 ^ 64 := by unfold maxValue at hn; omega
  have hm := Sim.stringTag (V := V) s _ hR
  have hp : Parser.stringTag (Spec.ilint 17 ++ Spec.ilint v.length ++ v ++ rest) =
      match fromUtf8 v with
      | some s => .ok s rest
      | none => .fail .corruptedData := by
    unfold Parser.stringTag
    rw [show Spec.ilint 17 = Spec.ilint (17 : UInt64).toNat from rfl, List.append_assoc, List.append_assoc,
      Parser.bind_ok (ilint_enc _ _), if_neg (by decide), Parser.bind_ok (ilint_enc_nat h64 _), tagSizeToUsize_eq hn,
      Parser.lift_ok, Parser.pure_bind]
    simp only [Parser.bind_apply, Parser.utf8, Parser.bytes, Nat.one_mul, ha, if_true, Parser.take, List.length_append,
      Nat.le_add_right, List.take_left, List.drop_left]
    cases fromUtf8 v <;> rfl
  rw [hp] at hm
  constructor
  · intro h
    obtain ⟨str, hs⟩ := (utf8Text_iff _).mp h
    rw [fromUtf8_eq_some.mpr (by rw [utf8_eq]; exact hs)] at hm
    obtain ⟨s', h1, h2⟩ := hm
    exact ⟨str, s', h1, hs, h2⟩
  · intro h
    rw [fromUtf8_eq_none.mpr (fun s => by rw [utf8_eq]; exact fun hs => h ((utf8Text_iff _).mpr ⟨s, hs⟩))] at hm
    exact hm

/-- **C86** So a dictionary is written in the order of the code points of its keys. -/
theorem C86_keys_in_order [TagPayload P] (id : UInt64) (es : List (String × Tag P)) (hm : MapsOk (.dict id es))
    (hp : PayloadsOk (.dict id es)) (hl : (enc (.dict id es)).length < 2 ^ 64) :
    ∃ sorted : List (String × Tag P), (∀ e, e ∈ sorted ↔ e ∈ es) ∧
      sorted.Pairwise (fun a b => codePoints a.1 < codePoints b.1) ∧
      ∃ w, (Tag.dict id es).serializeValue VecWriter.new = (.ok (), w) ∧
        w.vector = Spec.ilint es.length ++ sorted.flatMap fun e => Spec.stringTag e.1 ++ enc e.2 := by
  obtain ⟨sorted, h1, h2, h3⟩ := C39_dict_sorted id es hm hp hl
  exact ⟨sorted, h1, h2.imp fun h => (C86_order _ _).mp h, h3⟩

/-! ### Examples -/

/-- `é` and `€` follow the table. -/
example : Utf8Text [0x61, 0xC3, 0xA9, 0xE2, 0x82, 0xAC] :=
  .cons (.ascii (by unfold InRange; decide)) (.cons (.two (by unfold InRange; decide) (by unfold InRange; decide))
    (.cons (.e1 (by unfold InRange; decide) (by unfold InRange; decide) (by unfold InRange; decide)) .nil))

/-- The classic malformed sequences do not: an overlong slash, a surrogate, a number above U+10FFFF, a lone
continuation byte and a cut character. -/
example : ∀ v ∈ [[0xC0, 0xAF], [0xE0, 0x80, 0xAF], [0xED, 0xA0, 0x80], [0xF4, 0x90, 0x80, 0x80], [0x80], [0xE2, 0x82]],
    ¬ Utf8Text v := by
  have h : ∀ v ∈ ([[0xC0, 0xAF], [0xE0, 0x80, 0xAF], [0xED, 0xA0, 0x80], [0xF4, 0x90, 0x80, 0x80], [0x80], [0xE2, 0x82]] :
      List Bytes), fromUtf8 v = none := by decide +kernel
  intro v hv ht
  obtain ⟨s, hs⟩ := (utf8Text_iff _).mp ht
  exact fromUtf8_eq_none.mp (h v hv) s (by rw [utf8_eq]; exact hs)

example : ByteArrayReader.view.toView.R (ByteArrayReader.new [0xC0, 0x80]) [0xC0, 0x80] :=
  ByteArrayReader.view_new _

/-- U+FF61 sorts before U+10000, although its UTF-16 encoding does not. -/
example : codePoints "｡" < codePoints "𐀀" ∧ codePoints "Z" < codePoints "a" ∧ codePoints "a" < codePoints "ab" := by
  decide +kernel

end Verif.Props
