import Verif.Model.Deser
/-!
# Payload code that handles errors of its reader

`RProg` (Model/Tag) is payload code that gives up on the first failing read, as `?` does.  Here is code that looks at
the result of each read and goes on as it likes, for example to read an optional field.
-/
namespace Verif

/-- The code of `ILTagPayload::deserialize`, /repo/src/tags/payload/mod.rs:82-88, as a program of `read` and `read_all`
calls on its reader, /repo/src/io/mod.rs:80,94, whose results, errors included, it may use.  Simplification: the
factory is not called, and the buffer of a `read_all` that failed is not looked at. -/
inductive HProg (P : Type) where
  | done (r : Res TagErr Unit) (self : P)
  | read (k : Except IoErr Byte → HProg P)
  | readAll (n : Nat) (k : Except IoErr Bytes → HProg P)

/-- Runs the code; a panic ends it. -/
def HProg.run {P σ : Type} [Reader σ] : HProg P → Act TagErr (P × σ) Unit
  | .done r p => fun q => (r, (p, q.2))
  | .read k => fun q =>
    match Reader.read q.2 with
    | (.ok b, s) => (k (.ok b)).run (q.1, s)
    | (.err e, s) => (k (.error e)).run (q.1, s)
    | (.panic, s) => (.panic, (q.1, s))
    | (.diverge, s) => (.diverge, (q.1, s))
  | .readAll n k => fun q =>
    match Reader.readAll n q.2 with
    | (.ok bs, s) => (k (.ok bs)).run (q.1, s)
    | (.err e, s) => (k (.error e)).run (q.1, s)
    | (.panic, s) => (.panic, (q.1, s))
    | (.diverge, s) => (.diverge, (q.1, s))

/-- The same code on a reader that is limited to `n` bytes and has them: what goes beyond the limit fails with
`UnableToReadData`, /repo/src/io/mod.rs:234-240, and everything else succeeds. -/
def HProg.plain {P : Type} : HProg P → Nat → RProg P
  | .done r p, _ => .done r p
  | .read k, n => if 1 ≤ n then .read fun b => (k (.ok b)).plain (n - 1) else (k (.error .unableToReadData)).plain n
  | .readAll m k, n =>
    if m ≤ n then .readAll m fun bs => (k (.ok bs)).plain (n - m) else (k (.error .unableToReadData)).plain n

/-- What the factory does with the code of a payload of `n` bytes under an id other than 10 and 14: it runs it on a reader
limited to `n` bytes, all of which must be taken; `deserialize_tag_value_into`,
/repo/src/tags/standard/factory/mod.rs:164-176. -/
def valueWith {P σ : Type} (n : Nat) (code : Act TagErr (P × Limited σ) Unit) : Act TagErr (P × σ) Unit :=
  withLimited n (do code; ensureEmpty)

end Verif
