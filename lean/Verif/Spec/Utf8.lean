import Verif.Basic
/-!
# Well-formed UTF-8: the table of the Unicode standard (Table 3-7, RFC 3629 section 4)
-/
namespace Verif.Spec

/-- The byte lies in the range. -/
def InRange (lo hi : Nat) (b : Byte) : Prop := lo ≤ b.toNat ∧ b.toNat ≤ hi

/-- The well-formed sequences of one character: the rows of the table. -/
inductive Utf8Seq : Bytes → Prop where
  | ascii {a} : InRange 0x00 0x7F a → Utf8Seq [a]
  | two {a b} : InRange 0xC2 0xDF a → InRange 0x80 0xBF b → Utf8Seq [a, b]
  | e0 {a b c} : InRange 0xE0 0xE0 a → InRange 0xA0 0xBF b → InRange 0x80 0xBF c → Utf8Seq [a, b, c]
  | e1 {a b c} : InRange 0xE1 0xEC a → InRange 0x80 0xBF b → InRange 0x80 0xBF c → Utf8Seq [a, b, c]
  | ed {a b c} : InRange 0xED 0xED a → InRange 0x80 0x9F b → InRange 0x80 0xBF c → Utf8Seq [a, b, c]
  | ee {a b c} : InRange 0xEE 0xEF a → InRange 0x80 0xBF b → InRange 0x80 0xBF c → Utf8Seq [a, b, c]
  | f0 {a b c d} : InRange 0xF0 0xF0 a → InRange 0x90 0xBF b → InRange 0x80 0xBF c → InRange 0x80 0xBF d →
      Utf8Seq [a, b, c, d]
  | f1 {a b c d} : InRange 0xF1 0xF3 a → InRange 0x80 0xBF b → InRange 0x80 0xBF c → InRange 0x80 0xBF d →
      Utf8Seq [a, b, c, d]
  | f4 {a b c d} : InRange 0xF4 0xF4 a → InRange 0x80 0x8F b → InRange 0x80 0xBF c → InRange 0x80 0xBF d →
      Utf8Seq [a, b, c, d]

/-- Well-formed text: such sequences one after another. -/
inductive Utf8Text : Bytes → Prop where
  | nil : Utf8Text []
  | cons {c bs} : Utf8Seq c → Utf8Text bs → Utf8Text (c ++ bs)

end Verif.Spec
