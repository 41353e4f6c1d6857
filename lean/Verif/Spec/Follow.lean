import Verif.Model.Factory
import Verif.Model.StdIo
/-!
# Specification: a program that follows a log while another one writes it

The file grows while it is read: before each `std::io::Read::read` the other program may append something, also in the
middle of a tag.  The follower reads through the crate's `ReadReader`; it remembers where the next tag starts and goes
back there when an attempt to read it fails with an i/o error.
-/
namespace Verif.Spec

/-- A file opened for reading, with its position.  `coming` has one entry for each of the next `std::io::Read::read`
calls: what the other program appends before it, and what the call does; after that nothing is appended and every call
transfers all it can. -/
structure LiveFile where
  content : Bytes
  pos : Nat
  coming : List (Bytes × ReadEv)
  deriving DecidableEq

namespace LiveFile

/-- What the file will hold. -/
def final (s : LiveFile) : Bytes := s.content ++ (s.coming.map Prod.fst).flatten

/-- `std::io::Read::read_exact` of `n` bytes: calls `read` until the buffer is full; `Ok(0)` is an unexpected end of
file, `Interrupted` is tried again, other errors are returned. -/
def exact : List (Bytes × ReadEv) → Bytes → Nat → Nat → Res StdErr Bytes × LiveFile
  | ev, c, p, 0 => (.ok [], ⟨c, p, ev⟩)
  | [], c, p, n + 1 =>
    if n + 1 ≤ (c.drop p).length then (.ok ((c.drop p).take (n + 1)), ⟨c, p + (n + 1), []⟩)
    else (.err .unexpectedEof, ⟨c, p + (c.drop p).length, []⟩)
  | (a, .error e) :: ev, c, p, n + 1 =>
    if e = .interrupted then exact ev (c ++ a) p (n + 1) else (.err e, ⟨c ++ a, p, ev⟩)
  | (a, .chunk k) :: ev, c, p, n + 1 =>
    let b := ((c ++ a).drop p).take (min k (n + 1))
    if b.isEmpty then (.err .unexpectedEof, ⟨c ++ a, p, ev⟩)
    else
      match exact ev (c ++ a) (p + b.length) (n + 1 - b.length) with
      | (.ok bs, s) => (.ok (b ++ bs), s)
      | (r, s) => (r, s)

/-- `read_all` of a `ReadReader` over the file, /repo/src/io/std_io/mod.rs:116-121. -/
def readAll (n : Nat) : Act IoErr LiveFile Bytes := fun s =>
  match exact s.coming s.content s.pos n with
  | (r, s') => (r.mapErr .ioError, s')

/-- `read` of a `ReadReader` over the file, /repo/src/io/std_io/mod.rs:107-113. -/
def read : Act IoErr LiveFile Byte := fun s =>
  match exact s.coming s.content s.pos 1 with
  | (.ok (b :: _), s') => (.ok b, s')
  | (.ok [], s') => (.panic, s')
  | (.err e, s') => (.err (.ioError e), s')
  | (.panic, s') => (.panic, s')
  | (.diverge, s') => (.diverge, s')

theorem exact_len (ev : List (Bytes × ReadEv)) : ∀ {c : Bytes} {p n : Nat} {bs : Bytes} {s : LiveFile},
    exact ev c p n = (.ok bs, s) → bs.length = n := by
  induction ev with
  | nil =>
    intro c p n bs s h
    cases n with
    | zero => simp only [exact, Prod.mk.injEq, Res.ok.injEq] at h; rw [← h.1]; rfl
    | succ n =>
      simp only [exact] at h
      split at h
      · rename_i hn
        simp only [Prod.mk.injEq, Res.ok.injEq] at h
        rw [← h.1, List.length_take]; omega
      · simp at h
  | cons a ev ih =>
    intro c p n bs s h
    obtain ⟨a, k | e⟩ := a <;> cases n
    · simp only [exact, Prod.mk.injEq, Res.ok.injEq] at h; rw [← h.1]; rfl
    · rename_i n
      simp only [exact] at h
      split at h
      · simp at h
      · rename_i hb
        rcases hx : exact ev (c ++ a) (p + (((c ++ a).drop p).take (min k (n + 1))).length)
          (n + 1 - (((c ++ a).drop p).take (min k (n + 1))).length) with ⟨r, s'⟩
        rw [hx] at h
        cases r with
        | ok bs' =>
          simp only [Prod.mk.injEq, Res.ok.injEq] at h
          have := ih hx
          rw [← h.1, List.length_append, this]
          have : (((c ++ a).drop p).take (min k (n + 1))).length ≤ n + 1 := by rw [List.length_take]; omega
          omega
        | _ => simp at h
    · simp only [exact, Prod.mk.injEq, Res.ok.injEq] at h; rw [← h.1]; rfl
    · simp only [exact] at h
      split at h
      · exact ih h
      · simp at h

instance : Reader LiveFile where
  read := read
  readAll := readAll
  skip := defaultSkip readAll
  skipU64 := defaultSkipU64 (defaultSkip readAll)
  readAll_len n s bs s' h := by
    unfold readAll at h
    rcases hr : exact s.coming s.content s.pos n with ⟨r, s''⟩
    rw [hr] at h
    cases r with
    | ok bs' =>
      simp only [Res.mapErr, Prod.mk.injEq, Res.ok.injEq] at h
      rw [← h.1]
      exact exact_len _ hr
    | _ => simp [Res.mapErr] at h

end LiveFile

variable {P : Type}

/-- The program that follows the log. -/
structure Follower (P : Type) where
  file : LiveFile
  /-- Where the next tag starts. -/
  next : Nat
  /-- The tags delivered so far. -/
  tags : List (Tag P)
  /-- What ended the loop. -/
  ended : Option (Res TagErr Unit)

namespace Follower

/-- Nothing was read yet. -/
def start (file : LiveFile) : Follower P := ⟨file, 0, [], none⟩

variable [TagPayload P] [Env]

/-- One attempt to read the next tag, from where it starts. -/
def attempt (e : Engine P) (f : Follower P) : Follower P :=
  match f.ended with
  | some _ => f
  | none =>
    match Factory.deserialize e LiveFile { f.file with pos := f.next } with
    | (.ok t, s) => ⟨s, s.pos, f.tags ++ [t], none⟩
    | (.err (.ioError _), s) => { f with file := s }
    | (.err x, s) => { f with file := s, ended := some (.err x) }
    | (.panic, s) => { f with file := s, ended := some .panic }
    | (.diverge, s) => { f with file := s, ended := some .diverge }

/-- So many attempts. -/
def attempts (e : Engine P) : Nat → Follower P → Follower P
  | 0, f => f
  | n + 1, f => (f.attempts e n).attempt e

end Follower
end Verif.Spec
