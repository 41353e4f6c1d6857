import Verif.Props.RoundTrip
import Verif.Proof.Header
import Verif.Proof.Keeps
/-!
# Deserialization through arbitrary readers (C36 for every reader, C37, C49, C50, C55, C63, C64)

`Watched σ` wraps a reader of any kind and writes down the bytes it delivers and the calls that fail; watching changes
nothing (`C64_watching`).
-/
namespace Verif.Props
open Verif Verif.Spec
variable {P : Type}

/-! ### A reader for the examples -/

/-- A reader that follows a script: each byte is answered by a byte or by a failure. -/
structure Script where
  answers : List (Res IoErr Byte)

/-- The next answer; at the end of the script the data ends. -/
def Script.next : Act IoErr Script Byte := fun s =>
  match s.answers with
  | [] => (.err .endOfData, s)
  | r :: rs => (r, ⟨rs⟩)

instance : Reader Script where
  read := Script.next
  readAll := defaultReadAll Script.next
  skip := defaultSkip (defaultReadAll Script.next)
  skipU64 := defaultSkipU64 (defaultSkip (defaultReadAll Script.next))
  readAll_len n s bs s' := defaultReadAll_len _ n s bs s'

/-! ### C64 -/

/-- Watching a reader changes neither the outcome nor what happens to the reader. -/
theorem C64_watching [TagPayload P] [Env] (e : Engine P) {σ : Type} [Reader σ] (s : σ) :
    Factory.deserialize e σ s = ((Factory.deserialize e (Watched σ) (.start s)).1,
      (Factory.deserialize e (Watched σ) (.start s)).2.source) := by
  have h := deserialize_source e (Watched.start s)
  rw [h.1, h.2]; rfl

/-- **C64** Any factory on any reader, in any state.  As soon as a call on the reader fails no other call is made and
the outcome is that failure, with the very error of the reader inside `IOError`; in particular no tag is returned.  If no
call fails the outcome is the one of `from_bytes` on the bytes delivered. -/
theorem C64_reader_errors [TagPayload P] [Env] (e : Engine P) {σ : Type} [Reader σ] (s : σ) :
    let o := Factory.deserialize e (Watched σ) (.start s)
    (∃ c, o.2.failed = [c] ∧ c.isOk = false ∧ o.1 = ofFailure c) ∨
    (o.2.failed = [] ∧ o.1 = Factory.fromBytes e o.2.log) := by
  obtain ⟨D, hD, h⟩ := deserialize_watched e (Watched.start s)
  simp only [Watched.start, List.nil_append] at hD h ⊢
  rcases h with ⟨h1, h2, -⟩ | ⟨c, h1, h2, h3⟩
  · exact .inr ⟨h1, by rw [hD, h2]⟩
  · exact .inl ⟨c, h1, h2, h3⟩

/-- **C64** An error `x` reported by the reader is the error of `deserialize`. -/
theorem C64_error [TagPayload P] [Env] (e : Engine P) {σ : Type} [Reader σ] (s : σ) (x : IoErr)
    (h : .err x ∈ (Factory.deserialize e (Watched σ) (.start s)).2.failed) :
    (Factory.deserialize e σ s).1 = .err (.ioError x) := by
  have h1 := C64_reader_errors e s
  simp only at h1
  rcases h1 with ⟨c, h2, -, h3⟩ | ⟨h2, -⟩
  · rw [h2] at h
    simp only [List.mem_singleton] at h
    subst h
    rw [C64_watching]
    exact h3
  · rw [h2] at h; simp at h

section
attribute [local instance] bigEnv

/-- A sequence of two tags whose stream fails inside the second. -/
def failingStream : Script := ⟨[.ok 22, .ok 4, .ok 0, .ok 5, .ok 1, .err .unableToReadData, .ok 7]⟩

example : (Factory.deserialize (Engine.std true : Engine Empty) (Watched Script) (.start failingStream)).2.failed
    = [.err .unableToReadData] := by rw [deserialize_eq]; decide +kernel
example : (Factory.deserialize (Engine.std true : Engine Empty) Script failingStream).1
    = .err (.ioError .unableToReadData) :=
  C64_error _ _ _ (by rw [show (Factory.deserialize (Engine.std true : Engine Empty) (Watched Script)
    (.start failingStream)).2.failed = [.err .unableToReadData] by rw [deserialize_eq]; decide +kernel]; simp)
end

/-! ### C36 -/

/-- **C36** On every reader whatsoever the standard factory, strict or not, terminates without a panic, unless the
reader itself panics or never returns. -/
theorem C36_any_reader [TagPayload P] [Env] (hr : MemoryOk) (strict : Bool) {σ : Type} [Reader σ] (s : σ) :
    ((Factory.deserialize (Engine.std strict : Engine P) σ s).1 = .panic →
      (Factory.deserialize (Engine.std strict : Engine P) (Watched σ) (.start s)).2.failed = [.panic]) ∧
    ((Factory.deserialize (Engine.std strict : Engine P) σ s).1 = .diverge →
      (Factory.deserialize (Engine.std strict : Engine P) (Watched σ) (.start s)).2.failed = [.diverge]) := by
  have h := C64_reader_errors (Engine.std strict : Engine P) s
  rw [C64_watching (Engine.std strict : Engine P) s]
  simp only at h ⊢
  rcases h with ⟨c, h1, h2, h3⟩ | ⟨h1, h2⟩
  · rw [h1, h3]
    cases c <;> simp [ofFailure, Res.isOk] at h2 ⊢
  · rw [h2]
    have hc := Calm.top hr (Engine.std strict : Engine P) (std_calm strict)
      (Factory.deserialize (Engine.std strict : Engine P) (Watched σ) (.start s)).2.log
    have hf := fromBytes_cases (Engine.std strict : Engine P)
      (Factory.deserialize (Engine.std strict : Engine P) (Watched σ) (.start s)).2.log
    revert hc hf
    cases Parser.top (Engine.std strict : Engine P)
      (Factory.deserialize (Engine.std strict : Engine P) (Watched σ) (.start s)).2.log with
    | ok t rest => intro _ hf; simp only at hf; rw [hf]; split <;> simp
    | short => rintro - ⟨x, hf⟩; rw [hf]; simp
    | fail x => intro _ hf; simp only at hf; rw [hf]; simp
    | panic => intro hc; exact hc.elim
    | diverge => intro hc; exact hc.elim

/-! ### C37 -/

/-- **C37** If the header declares more than 512 MiB the result is `TagTooLarge`; the reader is where the header ended,
so no byte of the value was read; and this holds whatever memory there is, even none, so none was requested. -/
theorem C37_too_large [TagPayload P] (E : Env) (e : Engine P) {σ : Type} [Reader σ] (s s' : σ) (id : UInt64)
    (size : Nat) (h : Header s id size s') (hs : maxValue < size) :
    Factory.deserialize e σ s = (.err .tagTooLarge, s') ∧
    ∀ t : Tag P, t.id = id → Factory.deserializeInto e (t, s) = (.err .tagTooLarge, (t, s')) :=
  ⟨deserialize_too_large e h hs, fun t ht => deserializeInto_too_large e h hs t ht⟩

example : Header (ByteArrayReader.new [16, 0xFB, 0x1F, 0xFF, 0xFF, 0x09, 1, 2]) 16 (maxValue + 1)
    ⟨[16, 0xFB, 0x1F, 0xFF, 0xFF, 0x09, 1, 2], 6⟩ := by
  refine ⟨⟨[16, 0xFB, 0x1F, 0xFF, 0xFF, 0x09, 1, 2], 1⟩, by decide +kernel, .inr ⟨by decide, 536870913, ?_, by decide⟩⟩
  decide +kernel

/-- The buffers the library may request: up to 2^29 elements of 1 byte (byte buffers), 8 bytes (ILInts) or 16 bytes
(tags). -/
def modestRequest (unit count : Nat) : Prop := (unit = 1 ∨ unit = 8 ∨ unit = 16) ∧ count ≤ maxValue

/-- **C37** Whatever the factory and the reader, `deserialize` does nothing but call its reader and request memory,
and every request is for at most 512 Mi elements of 1, 8 or 16 bytes. -/
theorem C37_requests [TagPayload P] (e : Engine P) : ∃ T : Prog Unit (Tag P), T.allocs modestRequest ∧
    ∀ (E : Env) (σ : Type) (i : Reader σ) (s : σ),
      Factory.deserialize e σ s = ((T.run s).1, (T.run s).2.2) := by
  have hA : Adm modestRequest := fun n hn => ⟨⟨.inl rfl, hn⟩, ⟨.inr (.inl rfl), hn⟩, ⟨.inr (.inr rfl), hn⟩⟩
  exact Rep.deserialize hA e

theorem run_memory {τ α : Type} {T : Prog τ α} (hT : T.allocs modestRequest) (E E' : Env) (hE : @MemoryOk E)
    (hE' : @MemoryOk E') {σ : Type} [Reader σ] (s : σ) : @Prog.run τ α E σ _ T s = @Prog.run τ α E' σ _ T s := by
  induction T generalizing s with
  | done r t => rfl
  | read t k ih =>
    simp only [Prog.run]
    rcases Reader.read s with ⟨r, s'⟩
    cases r <;> first | exact ih _ (hT _) _ | rfl
  | readAll t n k ih =>
    simp only [Prog.run]
    rcases Reader.readAll n s with ⟨r, s'⟩
    cases r <;> first | exact ih _ (hT _) _ | rfl
  | alloc t u c k ih =>
    have h : u * c ≤ 16 * maxValue := by
      obtain ⟨⟨hu, hc⟩, -⟩ := hT
      exact Nat.mul_le_mul (by omega) hc
    have h1 : u * c ≤ @Env.allocMax E := Nat.le_trans h hE
    have h2 : u * c ≤ @Env.allocMax E' := Nat.le_trans h hE'
    simp only [Prog.run, if_pos h1, if_pos h2]
    exact ih hT.2 s

/-- **C37** So 8 GiB for a single buffer is always enough: more memory changes nothing, for any reader. -/
theorem C37_memory [TagPayload P] (E E' : Env) (hE : @MemoryOk E) (hE' : @MemoryOk E') (e : Engine P) {σ : Type}
    [Reader σ] (s : σ) : @Factory.deserialize P _ E e σ _ s = @Factory.deserialize P _ E' e σ _ s := by
  obtain ⟨T, hA, hT⟩ := C37_requests e
  rw [hT E, hT E', run_memory hA E E' hE hE']

example : @MemoryOk ⟨8589934592⟩ ∧ ¬ @MemoryOk ⟨8589934591⟩ := by unfold MemoryOk; decide

/-! ### C63 -/

/-- **C63** A few bytes, the header of a byte array tag and nothing else, make the factory request a buffer of the full
declared size: with less memory it panics, with enough it then fails because the data ends. -/
theorem C63_byte_buffer [TagPayload P] [Env] (strict : Bool) (n : Nat) (h0 : 0 < n) (hn : n ≤ maxValue) :
    (Spec.ilint 16 ++ Spec.ilint n).length ≤ 10 ∧
    (n ≤ Env.allocMax → ∃ x, Factory.fromBytes (Engine.std strict : Engine P) (Spec.ilint 16 ++ Spec.ilint n)
      = .err (.ioError x)) ∧
    (Env.allocMax < n → Factory.fromBytes (Engine.std strict : Engine P) (Spec.ilint 16 ++ Spec.ilint n) = .panic) := by
  have hl : (Spec.ilint 16 ++ Spec.ilint n).length ≤ 10 := by
    have := ilint_le9 n
    rw [List.length_append, show (Spec.ilint 16).length = 1 from by decide]; omega
  have h64 : n < 2 ^ 64 := by unfold maxValue at hn; omega
  have hp : Parser.top (Engine.std strict : Engine P) (Spec.ilint 16 ++ Spec.ilint n) =
      if n ≤ Env.allocMax then .short else .panic := by
    obtain ⟨t₀, hc, hk, hi⟩ := std_create (P := P) (strict := strict) (id := 16) (k := .byteArray) rfl
    rw [top_eq, show Spec.ilint 16 = Spec.ilint (16 : UInt64).toNat from rfl, Parser.bind_ok (ilint_enc _ _),
      tagSize_explicit (by decide), Parser.bind_assoc, ← List.append_nil (Spec.ilint n),
      Parser.bind_ok (ilint_enc_nat h64 _), tagSizeToUsize_eq hn, Parser.lift_ok, Parser.pure_bind, hc, Parser.lift_ok,
      Parser.pure_bind]
    cases t₀ with
    | atom a =>
      cases a with
      | byteArray v =>
        have hs : ¬ n ≤ ([] : Bytes).length := by simp; omega
        simp only [Parser.tagValueInto, Parser.limited, hs, if_false, Parser.tagValue, Parser.atomValue, Parser.bytes,
          Nat.one_mul]
        by_cases hm : n ≤ Env.allocMax
        · simp only [if_pos hm, Parser.bind_apply, Parser.take, if_neg hs]
        · simp only [if_neg hm, Parser.bind_apply, Parser.panic_apply]
      | _ => simp [Tag.kind, Atom.kind] at hk
    | _ => simp [Tag.kind] at hk
  have hf := fromBytes_cases (Engine.std strict : Engine P) (Spec.ilint 16 ++ Spec.ilint n)
  rw [hp] at hf
  refine ⟨hl, fun hm => ?_, fun hm => ?_⟩
  · rw [if_pos hm] at hf; exact hf
  · rw [if_neg (by omega)] at hf; exact hf

/-- **C63** For a tag array it is sixteen times the declared count: up to 8 GiB for 11 bytes of input. -/
theorem C63_array_buffer [TagPayload P] [Env] (strict : Bool) (n : Nat) (h0 : 9 < n) (hn : n ≤ maxValue) :
    (Spec.ilint 21 ++ Spec.ilint n ++ Spec.ilint n).length ≤ 19 ∧
    (16 * n ≤ Env.allocMax → ∃ x,
      Factory.fromBytes (Engine.std strict : Engine P) (Spec.ilint 21 ++ Spec.ilint n ++ Spec.ilint n)
        = .err (.ioError x)) ∧
    (Env.allocMax < 16 * n →
      Factory.fromBytes (Engine.std strict : Engine P) (Spec.ilint 21 ++ Spec.ilint n ++ Spec.ilint n) = .panic) := by
  have h9 := ilint_le9 n
  have hl : (Spec.ilint 21 ++ Spec.ilint n ++ Spec.ilint n).length ≤ 19 := by
    rw [List.length_append, List.length_append, show (Spec.ilint 21).length = 1 from by decide]; omega
  have h64 : n < 2 ^ 64 := by unfold maxValue at hn; omega
  have hp : Parser.top (Engine.std strict : Engine P) (Spec.ilint 21 ++ Spec.ilint n ++ Spec.ilint n) =
      if 16 * n ≤ Env.allocMax then .short else .panic := by
    obtain ⟨t₀, hc, hk, hi⟩ := std_create (P := P) (strict := strict) (id := 21) (k := .array) rfl
    rw [top_eq, show Spec.ilint 21 = Spec.ilint (21 : UInt64).toNat from rfl, List.append_assoc,
      Parser.bind_ok (ilint_enc _ _), tagSize_explicit (by decide), Parser.bind_assoc,
      Parser.bind_ok (ilint_enc_nat h64 _), tagSizeToUsize_eq hn, Parser.lift_ok, Parser.pure_bind, hc, Parser.lift_ok,
      Parser.pure_bind]
    cases t₀ with
    | atom a => cases a <;> simp [Tag.kind, Atom.kind] at hk
    | array id ts =>
      have hs : ¬ n ≤ (Spec.ilint n).length := by omega
      have hv : (UInt64.ofNat n).toNat = n := by simp; omega
      obtain ⟨m, rfl⟩ : ∃ m, n = m + 1 := ⟨n - 1, by omega⟩
      have hi : Parser.ilint (Spec.ilint (m + 1)) = .ok (UInt64.ofNat (m + 1)) [] := by
        have := ilint_enc_nat h64 []
        rwa [List.append_nil] at this
      simp only [Parser.tagValueInto, Parser.limited, hs, if_false, Parser.tagValue, Parser.array, Parser.bind_apply, hi]
      simp only [hv, gt_iff_lt, Nat.lt_irrefl, if_false, Parser.alloc]
      by_cases hm : 16 * (m + 1) ≤ Env.allocMax
      · simp only [if_pos hm, Parser.bind_apply, Parser.pure_apply, Parser.tags]
        have htop : Parser.top (Engine.std strict : Engine P) [] = .short := by rw [top_eq]; rfl
        simp [htop]
      · simp only [if_neg hm, Parser.bind_apply, Parser.panic_apply]
    | seq id ts => simp [Tag.kind] at hk
    | dict id ts => simp [Tag.kind] at hk
  have hf := fromBytes_cases (Engine.std strict : Engine P) (Spec.ilint 21 ++ Spec.ilint n ++ Spec.ilint n)
  rw [hp] at hf
  refine ⟨hl, fun hm => ?_, fun hm => ?_⟩
  · rw [if_pos hm] at hf; exact hf
  · rw [if_neg (by omega)] at hf; exact hf

/-- **C63** For an array of ILInts it is eight times the declared count. -/
theorem C63_ilint_buffer [TagPayload P] [Env] (strict : Bool) (n : Nat) (h0 : 9 < n) (hn : n ≤ maxValue) :
    (Spec.ilint 20 ++ Spec.ilint n ++ Spec.ilint n).length ≤ 19 ∧
    (8 * n ≤ Env.allocMax → ∃ x,
      Factory.fromBytes (Engine.std strict : Engine P) (Spec.ilint 20 ++ Spec.ilint n ++ Spec.ilint n)
        = .err (.ioError x)) ∧
    (Env.allocMax < 8 * n →
      Factory.fromBytes (Engine.std strict : Engine P) (Spec.ilint 20 ++ Spec.ilint n ++ Spec.ilint n) = .panic) := by
  have h9 := ilint_le9 n
  have hl : (Spec.ilint 20 ++ Spec.ilint n ++ Spec.ilint n).length ≤ 19 := by
    rw [List.length_append, List.length_append, show (Spec.ilint 20).length = 1 from by decide]; omega
  have h64 : n < 2 ^ 64 := by unfold maxValue at hn; omega
  have hp : Parser.top (Engine.std strict : Engine P) (Spec.ilint 20 ++ Spec.ilint n ++ Spec.ilint n) =
      if 8 * n ≤ Env.allocMax then .short else .panic := by
    obtain ⟨t₀, hc, hk, hi⟩ := std_create (P := P) (strict := strict) (id := 20) (k := .ilintArray) rfl
    rw [top_eq, show Spec.ilint 20 = Spec.ilint (20 : UInt64).toNat from rfl, List.append_assoc,
      Parser.bind_ok (ilint_enc _ _), tagSize_explicit (by decide), Parser.bind_assoc,
      Parser.bind_ok (ilint_enc_nat h64 _), tagSizeToUsize_eq hn, Parser.lift_ok, Parser.pure_bind, hc, Parser.lift_ok,
      Parser.pure_bind]
    cases t₀ with
    | atom a =>
      cases a <;> simp [Tag.kind, Atom.kind] at hk
      have hs : ¬ n ≤ (Spec.ilint n).length := by omega
      have hv : (UInt64.ofNat n).toNat = n := by simp; omega
      obtain ⟨m, rfl⟩ : ∃ m, n = m + 1 := ⟨n - 1, by omega⟩
      have hi : Parser.ilint (Spec.ilint (m + 1)) = .ok (UInt64.ofNat (m + 1)) [] := by
        have := ilint_enc_nat h64 []
        rwa [List.append_nil] at this
      simp only [Parser.tagValueInto, Parser.limited, hs, if_false, Parser.tagValue, Parser.atomValue, Parser.ilintArray,
        Parser.bind_apply, hi]
      simp only [hv, gt_iff_lt, Nat.lt_irrefl, if_false]
      by_cases hm : 8 * (m + 1) ≤ Env.allocMax
      · simp only [if_pos hm, Parser.bind_apply, Parser.pure_apply, Parser.ilints]
        have htop : Parser.ilint [] = .short := rfl
        simp [htop]
      · simp only [if_neg hm, Parser.bind_apply, Parser.panic_apply]
    | array id ts => simp [Tag.kind] at hk
    | seq id ts => simp [Tag.kind] at hk
    | dict id ts => simp [Tag.kind] at hk
  have hf := fromBytes_cases (Engine.std strict : Engine P) (Spec.ilint 20 ++ Spec.ilint n ++ Spec.ilint n)
  rw [hp] at hf
  refine ⟨hl, fun hm => ?_, fun hm => ?_⟩
  · rw [if_pos hm] at hf; exact hf
  · rw [if_neg (by omega)] at hf; exact hf

/-- So the memory requested is not bounded by any constant multiple of the data present. -/
theorem C63_unbounded_by_data [TagPayload P] (strict : Bool) (factor : Nat) (hf : factor * 19 < 16 * maxValue) :
    ¬ ∀ (E : Env) (bs : Bytes), factor * bs.length ≤ E.allocMax →
      Factory.fromBytes (Engine.std strict : Engine P) bs ≠ .panic := by
  intro h
  have hlen := @C63_array_buffer P _ ⟨factor * 19⟩ strict maxValue (by decide) (Nat.le_refl _)
  exact h ⟨factor * 19⟩ _ (Nat.mul_le_mul_left _ hlen.1) (hlen.2.2 hf)

example : (1 : Nat) * 19 < 16 * maxValue ∧ 400000000 * 19 < 16 * maxValue := by decide

/-! ### C49, C50 -/

/-- **C49** Any factory, any payload programs, any reader: after the header, at most the declared number of bytes is
delivered to the value, whether it succeeds or not.  The same for `deserialize_into` on any tag. -/
theorem C49_value_bounded [TagPayload P] [Env] (e : Engine P) {σ : Type} [Reader σ] (w w' : Watched σ) (id : UInt64)
    (size : Nat) (h : Header w id size w') :
    (Factory.deserialize e (Watched σ) w).2.log.length ≤ w'.log.length + size ∧
    ∀ t : Tag P, t.id = id → (Factory.deserializeInto e (t, w)).2.2.log.length ≤ w'.log.length + size := by
  by_cases hs : size ≤ maxValue
  · constructor
    · rw [deserialize_header e h hs]
      unfold afterHeader
      simp only [Act.bind_apply, Act.lift]
      cases hc : e.createTag id with
      | ok o =>
        cases o with
        | none => simp [Act.fail]
        | some t =>
          obtain ⟨l, hl, -⟩ := value_allowance' e w' t hs
          simp only
          generalize Factory.deserializeTagValueInto (Factory.methods e) size (t, w') = o at hl
          obtain ⟨r, t', w2⟩ := o
          cases r <;> simp only at hl ⊢ <;> omega
      | _ => simp
    · intro t ht
      rw [deserializeInto_header e h hs t ht]
      obtain ⟨l, hl, -⟩ := value_allowance' e w' t hs
      omega
  · rw [deserialize_too_large e h (by omega)]
    refine ⟨by simp, fun t ht => ?_⟩
    rw [deserializeInto_too_large e h (by omega) t ht]
    simp

/-- A payload that tries to read 1000 bytes, whatever the size. -/
inductive Greedy where
  | mk
instance : TagPayload Greedy where
  serializedSize _ := 0
  serialize _ := ([], .ok ())
  deserialize _ _ := .readAll 1000 fun _ => .done (.ok ()) .mk

section
attribute [local instance] bigEnv
/-- Its tag declares 2 bytes; the third is not touched. -/
example : (Factory.deserialize ((Engine.std true).register 50 (payloadCreator Greedy.mk)).2 (Watched Script)
      (.start ⟨[.ok 50, .ok 2, .ok 7, .ok 8, .ok 9]⟩)).2.log = [50, 2] := by
  rw [deserialize_eq]; decide +kernel
end

/-- **C50** When a tag other than the two ILInt tags is returned, exactly the declared number of bytes was read. -/
theorem C50_all_read [TagPayload P] [Env] (e : Engine P) {σ : Type} [Reader σ] (w w' w'' : Watched σ) (id : UInt64)
    (size : Nat) (h : Header w id size w') (t : Tag P) (ht : Factory.deserialize e (Watched σ) w = (.ok t, w''))
    (hid : t.id ≠ 10 ∧ t.id ≠ 14) : w''.log.length = w'.log.length + size := by
  by_cases hs : size ≤ maxValue
  · rw [deserialize_header e h hs] at ht
    obtain ⟨t₀, -, hv⟩ := afterHeader_ok ht
    obtain ⟨l, hl, hz⟩ := value_allowance' e w' t₀ hs
    rw [hv] at hl hz
    rcases hz rfl with h0 | h0 | h0
    · subst h0; exact hl
    · exact absurd h0 hid.1
    · exact absurd h0 hid.2
  · rw [deserialize_too_large e h (by omega)] at ht; simp at ht

/-- **C50** If the value of a tag other than the two ILInt tags ends without an error but with declared bytes left, the
result is `CorruptedData`; for every type of tag, including custom payloads, and every reader. -/
theorem C50_left_over [TagPayload P] [Env] (e : Engine P) {σ : Type} [Reader σ] (s s' : σ) (id : UInt64) (size : Nat)
    (h : Header s id size s') (hs : size ≤ maxValue) (t₀ t : Tag P) (hc : e.createTag id = .ok (some t₀))
    (l : Limited σ) (hv : t₀.deserializeValue (Factory.methods e) size (t₀, ⟨s', size⟩) = (.ok (), (t, l)))
    (hl : l.available ≠ 0) (hid : t₀.id ≠ 10 ∧ t₀.id ≠ 14) :
    Factory.deserialize e σ s = (.err .corruptedData, l.source) := by
  have hk := Tag.deserializeValue_keeps (σ := Limited σ) (Factory.methods e) size t₀ t₀ ⟨s', size⟩ ⟨rfl, rfl⟩
  rw [hv] at hk
  have hempty : l.empty = false := by simp [Limited.empty, hl]
  have hinto : Factory.deserializeTagValueInto (Factory.methods e) size (t₀, s') =
      (.err .corruptedData, (t, l.source)) := by
    unfold Factory.deserializeTagValueInto withLimited
    simp only [Act.bind_apply, hv, Factory.checkEmpty]
    rw [if_pos ⟨by rw [hk.1]; exact hid.1, by rw [hk.1]; exact hid.2, hempty⟩]
  rw [deserialize_header e h hs, afterHeader_some _ _ _ hc, hinto]
  rfl

/-- **C50** The two ILInt tags read exactly one ILInt after the header: whatever encoding `bs` of a value `v` comes
next, the tag is returned and the reader is just after `bs`. -/
theorem C50_ilint [TagPayload P] [Env] (strict : Bool) {σ : Type} [Reader σ] (V : View σ) (s : σ) (bs rest : Bytes)
    (v : Nat) (hv : IsILInt bs v) :
    (V.R s (10 :: bs ++ rest) → ∃ s', Factory.deserialize (Engine.std strict : Engine P) σ s =
      (.ok (.atom (.ilint 10 (UInt64.ofNat v))), s') ∧ V.R s' rest) ∧
    (V.R s (14 :: bs ++ rest) → ∃ s', Factory.deserialize (Engine.std strict : Engine P) σ s =
      (.ok (.atom (.signedILInt 14 (ILInt.decodeSign (UInt64.ofNat v)))), s') ∧ V.R s' rest) := by
  have hl : bs.length ≤ 9 := by
    obtain ⟨-, ⟨b, rfl, -⟩ | ⟨h, body, rfl, -, h8, -⟩⟩ := hv
    · simp
    · simp; omega
  have hi : Parser.ilint bs = .ok (UInt64.ofNat v) [] := by
    have := ilint_isILInt hv []; rwa [List.append_nil] at this
  have h1 : Parser.top (Engine.std strict : Engine P) (10 :: bs ++ rest) =
      .ok (.atom (.ilint 10 (UInt64.ofNat v))) rest := by
    obtain ⟨t₀, hc, hk, hid⟩ := std_create (P := P) (strict := strict) (id := 10) (k := .ilint) rfl
    rw [top_eq, show 10 :: bs ++ rest = Spec.ilint (10 : UInt64).toNat ++ (bs ++ rest) from by
        rw [show Spec.ilint (10 : UInt64).toNat = [10] from by decide]; rfl,
      Parser.bind_ok (ilint_enc _ _), tagSize_implicit (by decide), implicitTagSize_eq (by decide), Parser.lift_ok,
      Parser.pure_bind, hc, Parser.lift_ok, Parser.pure_bind]
    cases t₀ with
    | atom a =>
      cases a with
      | ilint id w =>
        simp only [Tag.id, Atom.id] at hid
        subst hid
        show Parser.tagValueInto (Parser.call _) _ (.atom (.ilint 10 w)) _ = _
        refine tagValueInto_ok (Local.call _) bs ?_ (.inr ⟨hl, .inl rfl⟩) rest
        simp [Parser.tagValue, Parser.atomValue, Parser.bind_apply, hi]
      | _ => simp [Tag.kind, Atom.kind] at hk
    | _ => simp [Tag.kind] at hk
  have h2 : Parser.top (Engine.std strict : Engine P) (14 :: bs ++ rest) =
      .ok (.atom (.signedILInt 14 (ILInt.decodeSign (UInt64.ofNat v)))) rest := by
    obtain ⟨t₀, hc, hk, hid⟩ := std_create (P := P) (strict := strict) (id := 14) (k := .signedILInt) rfl
    rw [top_eq, show 14 :: bs ++ rest = Spec.ilint (14 : UInt64).toNat ++ (bs ++ rest) from by
        rw [show Spec.ilint (14 : UInt64).toNat = [14] from by decide]; rfl,
      Parser.bind_ok (ilint_enc _ _), tagSize_implicit (by decide), implicitTagSize_eq (by decide), Parser.lift_ok,
      Parser.pure_bind, hc, Parser.lift_ok, Parser.pure_bind]
    cases t₀ with
    | atom a =>
      cases a with
      | signedILInt id w =>
        simp only [Tag.id, Atom.id] at hid
        subst hid
        show Parser.tagValueInto (Parser.call _) _ (.atom (.signedILInt 14 w)) _ = _
        refine tagValueInto_ok (Local.call _) bs ?_ (.inr ⟨hl, .inr rfl⟩) rest
        simp [Parser.tagValue, Parser.atomValue, Parser.bind_apply, hi]
      | _ => simp [Tag.kind, Atom.kind] at hk
    | _ => simp [Tag.kind] at hk
  refine ⟨fun hR => ?_, fun hR => ?_⟩
  · exact deserialize_ok_of_top V hR h1
  · exact deserialize_ok_of_top V hR h2

/-- A longer encoding than needed. -/
example : IsILInt [0xF9, 0, 0] 248 :=
  ⟨by decide, .inr ⟨0xF9, [0, 0], rfl, by decide, by decide, by decide, by decide⟩⟩

section
attribute [local instance] bigEnv
/-- Leftover: a version tag cannot leave bytes, but a payload that reads less than its size can. -/
inductive Lazy where
  | mk
instance : TagPayload Lazy where
  serializedSize _ := 0
  serialize _ := ([], .ok ())
  deserialize _ _ := .read fun _ => .done (.ok ()) .mk
example : (Factory.deserialize ((Engine.std true).register 50 (payloadCreator Lazy.mk)).2 (Watched Script)
      (.start ⟨[.ok 50, .ok 2, .ok 7, .ok 8, .ok 9]⟩)).1.isOk = false ∧
    (Factory.deserialize ((Engine.std true).register 50 (payloadCreator Lazy.mk)).2 (Watched Script)
      (.start ⟨[.ok 50, .ok 1, .ok 7, .ok 8, .ok 9]⟩)).1.isOk = true := by
  rw [deserialize_eq]; decide +kernel
/-- The hypotheses of `C50_left_over` are met by it. -/
example : ∃ t l, (Tag.atom (.payload 50 Lazy.mk)).deserializeValue (Factory.methods (Engine.std true)) 2
    (Tag.atom (.payload 50 Lazy.mk), (⟨⟨[.ok 7, .ok 8, .ok 9]⟩, 2⟩ : Limited Script)) = (.ok (), (t, l)) ∧
    l.available ≠ 0 := ⟨.atom (.payload 50 .mk), ⟨⟨[.ok 8, .ok 9]⟩, 1⟩, rfl, by decide⟩
end

/-! ### C55 -/

/-- **C55** The value of a tag that is neither a sequence, an array, a dictionary nor a custom payload does not depend
on the factory at all. -/
theorem C55_factory_unused [TagPayload P] [Env] (t : Tag P)
    (ht : t.kind ≠ .seq ∧ t.kind ≠ .array ∧ t.kind ≠ .dict ∧ t.kind ≠ .payload) (f f' : FactoryDeser P) (size : Nat)
    {σ : Type} [Reader σ] (q : Tag P × σ) : t.deserializeValue f size q = t.deserializeValue f' size q := by
  cases t with
  | atom a =>
    have ha : a.kind ≠ .payload := ht.2.2.2
    simp only [Tag.deserializeValue, Atom.factory_free ha f f']
  | seq id ts => exact absurd rfl ht.1
  | array id ts => exact absurd rfl ht.2.1
  | dict id ts => exact absurd rfl ht.2.2.1

/-- **C55** So with the factory that always panics it never panics, as long as there is memory. -/
theorem C55_untouchable [TagPayload P] [Env] (hr : MemoryOk) (t : Tag P)
    (ht : t.kind ≠ .seq ∧ t.kind ≠ .array ∧ t.kind ≠ .dict ∧ t.kind ≠ .payload) (size : Nat) (hs : size ≤ maxValue)
    {σ : Type} [Reader σ] (V : View σ) (s : σ) (bs : Bytes) (hR : V.R s bs) :
    (t.deserializeValue Factory.untouchable size (t, s)).1 ≠ .panic ∧
    (t.deserializeValue Factory.untouchable size (t, s)).1 ≠ .diverge := by
  rw [C55_factory_unused t ht Factory.untouchable (fun _ _ _ => Act.fail .unknownTag) size]
  have hm := sim_tagValue (V := V) (f := fun _ _ _ => Act.fail .unknownTag) (pf := fun _ => Parser.fail .unknownTag)
    (fun _ _ _ _ => Sim.fail _) size t s bs hR
  have hc : (Parser.tagValue (fun _ => Parser.fail .unknownTag) size t bs).calm :=
    Calm.tagValue (N := bs.length) hr (fun _ => Local.fail _) (fun h => by simp at h) (fun _ _ => Calm.fail) hs t
      (calmTag_other fun id p h => absurd (by rw [h]; rfl) ht.2.2.2) bs (Nat.le_refl _)
  revert hm hc
  cases Parser.tagValue (fun _ => Parser.fail .unknownTag) size t bs with
  | ok t rest => rintro ⟨s', h, -⟩ -; rw [h]; simp
  | short => rintro ⟨e, t', s', h, -⟩ -; rw [h]; simp
  | fail e => rintro ⟨t', s', h⟩ -; rw [h]; simp
  | panic => intro _ hc; exact hc.elim
  | diverge => intro _ hc; exact hc.elim

/-- `m'` does what `m` does, or panics. -/
def OrPanics {σ α : Type} (m m' : Act TagErr σ α) : Prop := ∀ p, (m' p).1 = .panic ∨ m' p = m p

namespace OrPanics
variable {σ τ α β : Type}
theorem same (m : Act TagErr σ α) : OrPanics m m := fun _ => .inr rfl
theorem panics {m m' : Act TagErr σ α} (h : ∀ p, (m' p).1 = .panic) : OrPanics m m' := fun p => .inl (h p)
theorem bind {m m' : Act TagErr σ α} {k k' : α → Act TagErr σ β} (h : OrPanics m m') (hk : ∀ a, OrPanics (k a) (k' a)) :
    OrPanics (m >>= k) (m' >>= k') := by
  intro p
  simp only [Act.bind_apply]
  rcases h p with h | h
  · left
    rcases hm : m' p with ⟨r, q⟩
    rw [hm] at h
    obtain rfl : r = .panic := h
    rfl
  · rw [h]
    rcases m p with ⟨r, q⟩
    cases r with
    | ok a => exact hk a q
    | err e => exact .inr rfl
    | panic => exact .inr rfl
    | diverge => exact .inr rfl
theorem onReader {m m' : Act TagErr σ α} (h : OrPanics m m') :
    OrPanics (Verif.onReader (τ := τ) m) (Verif.onReader m') := by
  intro p
  unfold Verif.onReader
  rcases h p.2 with h | h
  · exact .inl h
  · rw [h]; exact .inr rfl
theorem withLimited {m m' : Act TagErr (τ × Limited σ) α} (n : Nat) (h : OrPanics m m') :
    OrPanics (Verif.withLimited n m) (Verif.withLimited n m') := by
  intro p
  unfold Verif.withLimited
  rcases h (p.1, ⟨p.2, n⟩) with h | h
  · exact .inl h
  · rw [h]; exact .inr rfl
theorem zoom {τ' : Type} {m m' : Act TagErr (τ × σ) α} (w : τ → τ') (t : τ) (h : OrPanics m m') :
    OrPanics (Verif.zoom w t m) (Verif.zoom w t m') := by
  intro p
  unfold Verif.zoom
  rcases h (t, p.2) with h | h
  · exact .inl h
  · rw [h]; exact .inr rfl
end OrPanics

theorem untouchable_orPanics (f : FactoryDeser P) {σ : Type} [Reader σ] :
    OrPanics (f σ none) (Factory.untouchable σ none) := .panics fun _ => rfl

theorem orPanics_seq [Env] (f : FactoryDeser P) (size : Nat) {σ : Type} [Reader σ] :
    OrPanics (σ := List (Tag P) × σ) (Tag.deserializeSeq f size) (Tag.deserializeSeq Factory.untouchable size) := by
  refine OrPanics.withLimited size (OrPanics.bind (.same _) fun _ => ?_)
  generalize size + 1 = n
  intro p
  cases n with
  | zero => exact .inr rfl
  | succ n =>
    unfold Tag.pushWhileNotEmpty
    split
    · exact .inr rfl
    · exact .inl rfl

theorem orPanics_array [Env] (f : FactoryDeser P) (size : Nat) {σ : Type} [Reader σ] :
    OrPanics (σ := List (Tag P) × σ) (Tag.deserializeArray f size) (Tag.deserializeArray Factory.untouchable size) := by
  refine OrPanics.withLimited size (OrPanics.bind (.same _) fun c => ?_)
  split
  · exact .same _
  · refine OrPanics.bind (.same _) fun _ => OrPanics.bind (.same _) fun _ => OrPanics.bind ?_ fun _ => .same _
    cases c.toNat with
    | zero => exact .same _
    | succ n => exact .panics fun _ => rfl

theorem orPanics_dict [Env] (f : FactoryDeser P) (size : Nat) {σ : Type} [Reader σ] :
    OrPanics (σ := List (String × Tag P) × σ) (Tag.deserializeDict f size)
      (Tag.deserializeDict Factory.untouchable size) := by
  refine OrPanics.withLimited size (OrPanics.bind (.same _) fun c =>
    OrPanics.bind (.same _) fun _ => OrPanics.bind ?_ fun _ => .same _)
  cases c.toNat with
  | zero => exact .same _
  | succ n => exact OrPanics.bind (.same _) fun k => .panics fun _ => rfl

/-- **C55** For every tag but custom payloads the factory that always panics makes no other difference than panicking. -/
theorem C55_same_or_panic [TagPayload P] [Env] (t : Tag P) (ht : t.kind ≠ .payload) (f : FactoryDeser P)
    (size : Nat) {σ : Type} [Reader σ] (q : Tag P × σ) :
    (t.deserializeValue Factory.untouchable size q).1 = .panic ∨
      t.deserializeValue Factory.untouchable size q = t.deserializeValue f size q := by
  cases t with
  | atom a =>
    refine .inr (C55_factory_unused _ ⟨?_, ?_, ?_, ht⟩ _ _ _ _) <;> cases a <;> simp [Tag.kind, Atom.kind]
  | seq id ts => exact OrPanics.zoom (.seq id) ts (orPanics_seq f size) q
  | array id ts => exact OrPanics.zoom (.array id) ts (orPanics_array f size) q
  | dict id ts => exact OrPanics.zoom (.dict id) ts (orPanics_dict f size) q

/-- After success nothing is left of `self`'s items. -/
def Empties {σ τ α : Type} (m : Act TagErr (List τ × σ) α) : Prop :=
  ∀ p a q, m p = (.ok a, q) → q.1 = []
namespace Empties
variable {σ τ α β : Type}
theorem bind {m : Act TagErr (List τ × σ) α} {k : α → Act TagErr (List τ × σ) β} (h : ∀ a, Empties (k a)) :
    Empties (m >>= k) := by
  intro p b q hm
  rw [Act.bind_apply] at hm
  rcases hr : m p with ⟨r, p'⟩
  rw [hr] at hm
  cases r with
  | ok a => exact h a p' b q hm
  | _ => simp at hm
theorem withLimited {m : Act TagErr (List τ × Limited σ) α} (n : Nat) (h : Empties m) :
    Empties (Verif.withLimited n m) := by
  intro p a q hm
  unfold Verif.withLimited at hm
  rcases hr : m (p.1, ⟨p.2, n⟩) with ⟨r, t, l⟩
  rw [hr] at hm
  simp only [Prod.mk.injEq] at hm
  obtain ⟨rfl, rfl⟩ := hm
  exact h _ _ _ hr
theorem fail (e : TagErr) : Empties (σ := σ) (τ := τ) (Act.fail e : Act TagErr _ α) := by
  intro p a q h
  cases h
theorem panics {m : Act TagErr (List τ × σ) α} (h : ∀ p, (m p).1 = .panic) : Empties m := by
  intro p a q hm
  have := h p
  rw [hm] at this
  cases this
theorem cleared {k : Unit → Act TagErr (List τ × σ) β}
    (h : ∀ p b q, p.1 = [] → k () p = (.ok b, q) → q.1 = []) : Empties (setSelf [] >>= k) := by
  intro p b q hm
  rw [Act.bind_apply] at hm
  exact h _ b q rfl hm
end Empties

theorem ensureEmpty_self {τ σ : Type} {p q : τ × Limited σ} {a : Unit} (h : ensureEmpty p = (.ok a, q)) : q = p := by
  unfold ensureEmpty at h
  split at h <;> cases h
  rfl

theorem empties_seq [Env] (size : Nat) {σ : Type} [Reader σ] :
    Empties (σ := σ) (Tag.deserializeSeq (P := P) Factory.untouchable size) := by
  refine Empties.withLimited size (Empties.cleared fun p b q hp h => ?_)
  unfold Tag.pushWhileNotEmpty at h
  split at h
  · simp only [Prod.mk.injEq] at h
    rw [← h.2, hp]
  · cases h

theorem empties_array [Env] (size : Nat) {σ : Type} [Reader σ] :
    Empties (σ := σ) (Tag.deserializeArray (P := P) Factory.untouchable size) := by
  refine Empties.withLimited size (Empties.bind fun c => ?_)
  split
  · exact Empties.fail _
  · refine Empties.cleared fun p b q hp h => ?_
    by_cases ha : 16 * c.toNat ≤ Env.allocMax
    · have h : (Tag.pushTags Factory.untouchable c.toNat >>= fun _ => ensureEmpty) p = (.ok b, q) := by
        rw [Data.alloc, if_pos ha] at h
        exact h
      cases hc : c.toNat with
      | zero =>
        rw [hc] at h
        rw [ensureEmpty_self h]
        exact hp
      | succ n => rw [hc] at h; cases h
    · rw [Data.alloc, if_neg ha] at h
      cases h

theorem empties_dict [Env] (size : Nat) {σ : Type} [Reader σ] :
    Empties (σ := σ) (Tag.deserializeDict (P := P) Factory.untouchable size) := by
  refine Empties.withLimited size (Empties.bind fun c => Empties.cleared fun p b q hp h => ?_)
  cases hc : c.toNat with
  | zero =>
    rw [hc] at h
    rw [ensureEmpty_self h]
    exact hp
  | succ n =>
    rw [hc] at h
    rw [Act.bind_apply] at h
    have hn : ∀ u r, Tag.insertEntries (P := P) Factory.untouchable (n + 1) p ≠ (.ok u, r) := by
      intro u r hm
      rw [Tag.insertEntries, Act.bind_apply] at hm
      rcases hk : onReader deserializeStringTag p with ⟨x, p'⟩
      rw [hk] at hm
      cases x <;> cases hm
    rcases hm : Tag.insertEntries (P := P) Factory.untouchable (n + 1) p with ⟨x, p'⟩
    rw [hm] at h
    cases x with
    | ok u => exact absurd hm (hn u p')
    | _ => cases h

/-- The children of a container. -/
def items : Tag P → List (Tag P)
  | .atom _ => []
  | .seq _ ts => ts
  | .array _ ts => ts
  | .dict _ es => es.map Prod.snd

/-- **C55** And a container does use it: if with any factory at all the value is read as one with children, then with
the factory that always panics reading it panics. -/
theorem C55_touched [TagPayload P] [Env] (t : Tag P) (ht : t.kind ≠ .payload) (f : FactoryDeser P) (size : Nat)
    {σ : Type} [Reader σ] (q : Tag P × σ) (t' : Tag P) (s' : σ)
    (h : t.deserializeValue f size q = (.ok (), (t', s'))) (hi : items t' ≠ []) :
    (t.deserializeValue Factory.untouchable size q).1 = .panic := by
  rcases C55_same_or_panic t ht f size q with hp | hs
  · exact hp
  · rw [h] at hs
    refine absurd ?_ hi
    cases t with
    | atom a =>
      simp only [Tag.deserializeValue, zoom, Prod.mk.injEq] at hs
      rw [← hs.2.1]
      rfl
    | seq id ts =>
      simp only [Tag.deserializeValue, zoom, Prod.mk.injEq] at hs
      rw [← hs.2.1]
      exact empties_seq size (ts, q.2) () _ (Prod.ext hs.1 rfl)
    | array id ts =>
      simp only [Tag.deserializeValue, zoom, Prod.mk.injEq] at hs
      rw [← hs.2.1]
      exact empties_array size (ts, q.2) () _ (Prod.ext hs.1 rfl)
    | dict id ts =>
      simp only [Tag.deserializeValue, zoom, Prod.mk.injEq] at hs
      rw [← hs.2.1]
      show List.map _ _ = []
      rw [empties_dict size (ts, q.2) () _ (Prod.ext hs.1 rfl)]
      rfl
/-- Non-vacuity of `C55_touched`. -/
def oneNull : Res TagErr Unit × Tag Empty × Script :=
  @Tag.deserializeValue Empty Script _ bigEnv _ (fun _ _ _ => pure (.atom (.null 0))) 1 (.array 21 [])
    (.array 21 [], ⟨[.ok 1]⟩)
example : oneNull.1 = .ok () ∧ (items oneNull.2.1).length = 1 := by decide +kernel
/-- Whereas a sequence does use it. -/
example [Env] : ((Tag.seq 22 [] : Tag Empty).deserializeValue Factory.untouchable 1
    ((Tag.seq 22 [] : Tag Empty), (⟨[.ok 0]⟩ : Script))).1 = .panic := rfl
example : (Tag.atom (.strDict 30 []) : Tag Empty).kind ≠ .seq ∧ (Tag.atom (.strDict 30 []) : Tag Empty).kind ≠ .array ∧
    (Tag.atom (.strDict 30 []) : Tag Empty).kind ≠ .dict ∧ (Tag.atom (.strDict 30 []) : Tag Empty).kind ≠ .payload := by
  decide

end Verif.Props
