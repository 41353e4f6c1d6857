import Verif.Proof.Parser
import Verif.Model.Factory
/-!
# The tag deserializers as pure parsers

`Parser.tag e fuel` is the pure counterpart of the factory; `sim_deserializeFuel` relates the two for every
well-behaved reader.
-/
namespace Verif
open Spec

/-- A limited reader over a well-behaved source: it holds the bytes `bs` of the limited region; `D` is what the
source holds after the region; `slack` is by how much the source is too short for the region. -/
def limView {σ : Type} [Reader σ] (V : View σ) (slack : Nat) (D : Bytes) : View (Limited σ) where
  R l bs := bs.length + slack = l.available ∧ V.R l.source (bs ++ D) ∧ (slack = 0 ∨ D = [])
  E e := V.E e ∨ e = .unableToReadData
  read_cons := by
    rintro l b bs ⟨hl, hR, hs⟩
    obtain ⟨s', hr, hR'⟩ := V.read_cons hR
    refine ⟨⟨s', l.available - 1⟩, ?_, ?_, hR', hs⟩
    · simp only [Reader.read, Limited.read, Limited.canRead] at hr ⊢
      simp only [List.length_cons] at hl
      rw [if_neg (by omega)]
      simp [hr, Res.isOk]
    · simp at hl ⊢; omega
  read_nil := by
    rintro l ⟨hl, hR, hs⟩
    by_cases h0 : l.available = 0
    · exact ⟨.unableToReadData, l, by simp [Reader.read, Limited.read, Limited.canRead, h0], .inr rfl⟩
    · have hD : D = [] := by rcases hs with hs | hs; · simp at hl; omega
                             · exact hs
      subst hD
      obtain ⟨e, s', hr, he⟩ := V.read_nil hR
      refine ⟨e, ⟨s', l.available⟩, ?_, .inl he⟩
      simp only [Reader.read, Limited.read, Limited.canRead] at hr ⊢
      rw [if_neg (by omega)]
      simp [hr, Res.isOk]
  readAll_ok := by
    rintro l bs n ⟨hl, hR, hs⟩ hn
    obtain ⟨s', hr, hR'⟩ := V.readAll_ok (n := n) hR (by simp; omega)
    refine ⟨⟨s', l.available - n⟩, ?_, ?_, ?_, hs⟩
    · simp only [Reader.readAll, Limited.readAll, Limited.canRead] at hr ⊢
      rw [if_neg (by omega)]
      simp [hr, Res.isOk, List.take_append_of_le_length hn]
    · simp; omega
    · rwa [List.drop_append_of_le_length hn] at hR'
  readAll_short := by
    rintro l bs n ⟨hl, hR, hs⟩ hn
    by_cases h0 : n > l.available
    · exact ⟨.unableToReadData, l, by simp [Reader.readAll, Limited.readAll, Limited.canRead, h0], .inr rfl⟩
    · have hD : D = [] := by rcases hs with hs | hs; · omega
                             · exact hs
      subst hD
      obtain ⟨e, s', hr, he⟩ := V.readAll_short (n := n) hR (by simpa using hn)
      refine ⟨e, ⟨s', l.available⟩, ?_, .inl he⟩
      simp only [Reader.readAll, Limited.readAll, Limited.canRead] at hr ⊢
      rw [if_neg h0]
      simp [hr, Res.isOk]

section
variable {σ α β τ τ' : Type} [Reader σ] {V : View σ}

theorem SimS.pure : SimS V (pure () : Act TagErr (τ × σ) Unit) (fun t => pure t) := fun t s bs h => ⟨s, rfl, h⟩
theorem SimS.fail (e : TagErr) : SimS V (Act.fail e : Act TagErr (τ × σ) Unit) (fun _ => Parser.fail e) :=
  fun t s _ _ => ⟨t, s, rfl⟩
theorem SimS.panic : SimS V (Act.panic : Act TagErr (τ × σ) Unit) (fun _ => Parser.panic) :=
  fun t s _ _ => ⟨t, s, rfl⟩
theorem SimS.diverge : SimS V (Act.diverge : Act TagErr (τ × σ) Unit) (fun _ => Parser.diverge) :=
  fun t s _ _ => ⟨t, s, rfl⟩
theorem SimS.setSelf (t : τ) : SimS V (setSelf t : Act TagErr (τ × σ) Unit) (fun _ => Pure.pure t) :=
  fun _ s _ h => ⟨s, rfl, h⟩

theorem SimS.bind {m k : Act TagErr (τ × σ) Unit} {p q : τ → Parser τ} (h : SimS V m p) (hk : SimS V k q) :
    SimS V (m >>= fun _ => k) (fun t => p t >>= q) := by
  intro t s bs hR
  have := h t s bs hR
  show MatchesS V _ ((p t >>= q) bs)
  rw [Parser.bind_apply]
  cases hp : p t bs with
  | ok a rest =>
    rw [hp] at this
    obtain ⟨s', hm, hR'⟩ := this
    rw [Act.bind_ok hm]
    exact hk a s' rest hR'
  | short =>
    rw [hp] at this
    obtain ⟨e, t', s', hm, he⟩ := this
    exact ⟨e, t', s', Act.bind_err hm, he⟩
  | fail e =>
    rw [hp] at this
    obtain ⟨t', s', hm⟩ := this
    exact ⟨t', s', Act.bind_err hm⟩
  | panic =>
    rw [hp] at this
    obtain ⟨t', s', hm⟩ := this
    exact ⟨t', s', Act.bind_panic hm⟩
  | diverge =>
    rw [hp] at this
    obtain ⟨t', s', hm⟩ := this
    exact ⟨t', s', Act.bind_diverge hm⟩

theorem SimS.onReader {x : Act TagErr σ α} {p : Parser α} {k : α → Act TagErr (τ × σ) Unit}
    {q : α → τ → Parser τ} (h : Sim V x p) (hk : ∀ a, SimS V (k a) (q a)) :
    SimS V (onReader x >>= k) (fun t => p >>= fun a => q a t) := by
  intro t s bs hR
  have := h s bs hR
  show MatchesS V _ ((p >>= fun a => q a t) bs)
  rw [Parser.bind_apply]
  have ho : ∀ r s', x s = (r, s') → Verif.onReader x (t, s) = (r, (t, s')) := by
    intro r s' hx; simp [Verif.onReader, hx]
  cases hp : p bs with
  | ok a rest =>
    rw [hp] at this
    obtain ⟨s', hm, hR'⟩ := this
    rw [Act.bind_ok (ho _ _ hm)]
    exact hk a t s' rest hR'
  | short =>
    rw [hp] at this
    obtain ⟨e, s', hm, he⟩ := this
    exact ⟨e, t, s', Act.bind_err (ho _ _ hm), he⟩
  | fail e =>
    rw [hp] at this
    obtain ⟨s', hm⟩ := this
    exact ⟨t, s', Act.bind_err (ho _ _ hm)⟩
  | panic =>
    rw [hp] at this
    obtain ⟨s', hm⟩ := this
    exact ⟨t, s', Act.bind_panic (ho _ _ hm)⟩
  | diverge =>
    rw [hp] at this
    obtain ⟨s', hm⟩ := this
    exact ⟨t, s', Act.bind_diverge (ho _ _ hm)⟩

theorem SimS.modify {k : Act TagErr (τ × σ) Unit} {q : τ → Parser τ} (g : τ → τ) (hk : SimS V k q) :
    SimS V (modifySelf g >>= fun _ => k) (fun t => q (g t)) :=
  fun t s bs hR => hk (g t) s bs hR

theorem SimS.set {k : Act TagErr (τ × σ) Unit} {q : τ → Parser τ} (t0 : τ) (hk : SimS V k q) :
    SimS V (Verif.setSelf t0 >>= fun _ => k) (fun _ => q t0) :=
  fun _ s bs hR => hk t0 s bs hR

theorem SimS.guard {k : Act TagErr (τ × σ) Unit} {q : τ → Parser τ} (c : Prop) [Decidable c] (e : TagErr)
    (hk : SimS V k q) :
    SimS V (Act.guardE c e >>= fun _ => k) (fun t => if c then q t else Parser.fail e) := by
  intro t s bs hR
  by_cases h : c
  · simp only [Act.guardE, h, if_true]; exact hk t s bs hR
  · simp only [Act.guardE, h, if_false]; exact ⟨t, s, rfl⟩

theorem SimS.guard' (c : Prop) [Decidable c] (e : TagErr) :
    SimS V (Act.guardE c e : Act TagErr (τ × σ) Unit) (fun t => if c then Pure.pure t else Parser.fail e) := by
  intro t s bs hR
  by_cases h : c
  · simp only [Act.guardE, h, if_true]; exact ⟨s, rfl, hR⟩
  · simp only [Act.guardE, h, if_false]; exact ⟨t, s, rfl⟩

theorem SimS.ite {k k' : Act TagErr (τ × σ) Unit} {q q' : τ → Parser τ} (c : Prop) [Decidable c]
    (hk : SimS V k q) (hk' : SimS V k' q') :
    SimS V (if c then k else k') (fun t => if c then q t else q' t) := by
  split
  · exact hk
  · exact hk'

theorem SimS.alloc [Env] {k : Act TagErr (τ × σ) Unit} {q : τ → Parser τ} (unit count : Nat) (hk : SimS V k q) :
    SimS V (Data.alloc unit count >>= fun _ => k)
      (fun t => if unit * count ≤ Env.allocMax then q t else Parser.panic) := by
  intro t s bs hR
  by_cases h : unit * count ≤ Env.allocMax
  · simp only [Data.alloc, h, if_true]; exact hk t s bs hR
  · simp only [Data.alloc, h, if_false]; exact ⟨t, s, rfl⟩

theorem SimS.lift {r : Res TagErr α} {k : α → Act TagErr (τ × σ) Unit} {q : α → τ → Parser τ}
    (hk : ∀ a, SimS V (k a) (q a)) :
    SimS V (Act.lift r >>= k) (fun t => Parser.lift r >>= fun a => q a t) := by
  intro t s bs hR
  cases r with
  | ok a => exact hk a t s bs hR
  | err e => exact ⟨t, s, rfl⟩
  | panic => exact ⟨t, s, rfl⟩
  | diverge => exact ⟨t, s, rfl⟩

theorem SimS.zoom {m : Act TagErr (τ × σ) Unit} {p : τ → Parser τ} (wrap : τ → τ') (t0 : τ) (h : SimS V m p) :
    SimS V (zoom wrap t0 m) (fun _ => p t0 >>= fun t => Pure.pure (wrap t)) := by
  intro t s bs hR
  have := h t0 s bs hR
  show MatchesS V _ ((p t0 >>= fun t => Pure.pure (wrap t)) bs)
  rw [Parser.bind_apply]
  cases hp : p t0 bs with
  | ok a rest =>
    rw [hp] at this
    obtain ⟨s', hm, hR'⟩ := this
    exact ⟨s', by simp [Verif.zoom, hm], hR'⟩
  | short =>
    rw [hp] at this
    obtain ⟨e, t', s', hm, he⟩ := this
    exact ⟨e, wrap t', s', by simp [Verif.zoom, hm], he⟩
  | fail e =>
    rw [hp] at this
    obtain ⟨t', s', hm⟩ := this
    exact ⟨wrap t', s', by simp [Verif.zoom, hm]⟩
  | panic =>
    rw [hp] at this
    obtain ⟨t', s', hm⟩ := this
    exact ⟨wrap t', s', by simp [Verif.zoom, hm]⟩
  | diverge =>
    rw [hp] at this
    obtain ⟨t', s', hm⟩ := this
    exact ⟨wrap t', s', by simp [Verif.zoom, hm]⟩

theorem SimS.withLimited {m : Act TagErr (τ × Limited σ) Unit} {p : Nat → τ → Parser τ} (n : Nat)
    (h : ∀ slack D, SimS (limView V slack D) m (p slack)) :
    SimS V (withLimited n m) (fun t => Parser.limited n fun slack => p slack t) := by
  intro t s bs hR
  show MatchesS V _ (Parser.limited n (fun slack => p slack t) bs)
  unfold Parser.limited
  by_cases hn : n ≤ bs.length
  · rw [if_pos hn]
    have := h 0 (bs.drop n) t ⟨s, n⟩ (bs.take n) ⟨by simp; omega, by simpa using hR, .inl rfl⟩
    cases hp : p 0 t (bs.take n) with
    | ok a rest =>
      rw [hp] at this
      simp only [hp]
      obtain ⟨l', hm, hl, hR', -⟩ := this
      exact ⟨l'.source, by simp [Verif.withLimited, hm], hR'⟩
    | short =>
      rw [hp] at this
      simp only [hp]
      obtain ⟨e, t', l', hm, he⟩ := this
      refine ⟨e, t', l'.source, by simp [Verif.withLimited, hm], ?_⟩
      rcases he with (he | he) | he
      · exact .inl he
      · exact .inr he
      · exact .inr he
    | fail e =>
      rw [hp] at this
      simp only [hp]
      obtain ⟨t', l', hm⟩ := this
      exact ⟨t', l'.source, by simp [Verif.withLimited, hm]⟩
    | panic =>
      rw [hp] at this
      simp only [hp]
      obtain ⟨t', l', hm⟩ := this
      exact ⟨t', l'.source, by simp [Verif.withLimited, hm]⟩
    | diverge =>
      rw [hp] at this
      simp only [hp]
      obtain ⟨t', l', hm⟩ := this
      exact ⟨t', l'.source, by simp [Verif.withLimited, hm]⟩
  · rw [if_neg hn]
    have := h (n - bs.length) [] t ⟨s, n⟩ bs ⟨by simp; omega, by simpa using hR, .inr rfl⟩
    cases hp : p (n - bs.length) t bs with
    | ok a rest =>
      rw [hp] at this
      simp only [hp]
      obtain ⟨l', hm, hl, hR', -⟩ := this
      exact ⟨l'.source, by simp [Verif.withLimited, hm], by simpa using hR'⟩
    | short =>
      rw [hp] at this
      simp only [hp]
      obtain ⟨e, t', l', hm, he⟩ := this
      refine ⟨e, t', l'.source, by simp [Verif.withLimited, hm], ?_⟩
      rcases he with (he | he) | he
      · exact .inl he
      · exact .inr he
      · exact .inr he
    | fail e =>
      rw [hp] at this
      simp only [hp]
      obtain ⟨t', l', hm⟩ := this
      exact ⟨t', l'.source, by simp [Verif.withLimited, hm]⟩
    | panic =>
      rw [hp] at this
      simp only [hp]
      obtain ⟨t', l', hm⟩ := this
      exact ⟨t', l'.source, by simp [Verif.withLimited, hm]⟩
    | diverge =>
      rw [hp] at this
      simp only [hp]
      obtain ⟨t', l', hm⟩ := this
      exact ⟨t', l'.source, by simp [Verif.withLimited, hm]⟩

theorem SimS.ensureEmpty (slack : Nat) (D : Bytes) :
    SimS (limView V slack D) (ensureEmpty : Act TagErr (τ × Limited σ) Unit)
      (fun t => Parser.ensureEmpty slack >>= fun _ => Pure.pure t) := by
  rintro t l bs ⟨hl, hR, hs⟩
  show MatchesS _ _ ((Parser.ensureEmpty slack >>= fun _ => Pure.pure t) bs)
  rw [Parser.bind_apply]
  unfold Parser.ensureEmpty Verif.ensureEmpty
  by_cases h : bs.length + slack = 0
  · rw [if_pos h]
    refine ⟨l, ?_, hl, hR, hs⟩
    rw [if_pos]
    simp [Limited.empty]; omega
  · rw [if_neg h]
    refine ⟨t, l, ?_⟩
    rw [if_neg]
    simp [Limited.empty]; omega

end

/-! ### Pure counterparts of the deserializers -/
namespace Parser
variable {P : Type} [Env]

def alloc (unit count : Nat) : Parser Unit := if unit * count ≤ Env.allocMax then pure () else panic

def bytes (n : Nat) : Parser Bytes := if 1 * n ≤ Env.allocMax then take n else panic

def utf8 (n : Nat) : Parser String := do
  let tmp ← bytes n
  match fromUtf8 tmp with
  | some s => pure s
  | none => fail .corruptedData

def stringTag : Parser String := do
  let id ← ilint
  if id ≠ Id.string then fail .corruptedData
  else do
    let len ← ilint
    let n ← lift (tagSizeToUsize len)
    utf8 n

def rprog (f : Option (Tag P) → Parser (Tag P)) : RProg P → Parser P
  | .done r p => do lift r; pure p
  | .read k => do let b ← byte; rprog f (k b)
  | .readAll n k => do let bs ← take n; rprog f (k bs)
  | .deser k => do let t ← f none; rprog f (k t)
  | .into t k => do let t ← f (some t); rprog f (k t)

def ilints : Nat → List UInt64 → Parser (List UInt64)
  | 0, acc => pure acc
  | n + 1, acc => do
    let v ← ilint
    ilints n (acc ++ [v])

def ilintArray (vs : Nat) : Parser (List UInt64) :=
  limited vs fun slack => do
    let count ← ilint
    if count.toNat > vs then fail .corruptedData
    else if 8 * count.toNat ≤ Env.allocMax then do
      let r ← ilints count.toNat []
      ensureEmpty slack
      pure r
    else panic

def strEntries : Nat → List (String × String) → Parser (List (String × String))
  | 0, acc => pure acc
  | n + 1, acc => do
    let k ← stringTag
    let v ← stringTag
    strEntries n (HMap.insert k v acc)

def strDict (vs : Nat) : Parser (List (String × String)) :=
  limited vs fun slack => do
    let count ← ilint
    let r ← strEntries count.toNat []
    ensureEmpty slack
    pure r

def range (vs : Nat) : Parser (UInt64 × UInt16) :=
  limited vs fun slack => do
    let start ← ilint
    let count ← take 2
    ensureEmpty slack
    pure (start, UInt16.ofNat (fromBE count))

def fixed (vs n : Nat) (g : Bytes → Atom P) : Parser (Atom P) :=
  if vs = n then do let t ← take n; pure (g t) else fail .corruptedData

def i32 : Parser Int32 := do let t ← take 4; pure (UInt32.ofNat (fromBE t)).toInt32

def atomValue [TagPayload P] (f : Option (Tag P) → Parser (Tag P)) (vs : Nat) : Atom P → Parser (Atom P)
  | .null id => if vs = 0 then pure (.null id) else fail .corruptedData
  | .bool id _ => if vs = 1 then do
      let v ← byte
      if v = 0 then pure (.bool id false)
      else if v = 1 then pure (.bool id true)
      else fail .corruptedData
    else fail .corruptedData
  | .int8 id _ => if vs = 1 then do let v ← byte; pure (.int8 id v.toInt8) else fail .corruptedData
  | .uint8 id _ => if vs = 1 then do let v ← byte; pure (.uint8 id v) else fail .corruptedData
  | .int16 id _ => fixed vs 2 fun t => .int16 id (UInt16.ofNat (fromBE t)).toInt16
  | .uint16 id _ => fixed vs 2 fun t => .uint16 id (UInt16.ofNat (fromBE t))
  | .int32 id _ => fixed vs 4 fun t => .int32 id (UInt32.ofNat (fromBE t)).toInt32
  | .uint32 id _ => fixed vs 4 fun t => .uint32 id (UInt32.ofNat (fromBE t))
  | .int64 id _ => fixed vs 8 fun t => .int64 id (UInt64.ofNat (fromBE t)).toInt64
  | .uint64 id _ => fixed vs 8 fun t => .uint64 id (UInt64.ofNat (fromBE t))
  | .bin32 id _ => fixed vs 4 fun t => .bin32 id (UInt32.ofNat (fromBE t))
  | .bin64 id _ => fixed vs 8 fun t => .bin64 id (UInt64.ofNat (fromBE t))
  | .bin128 id _ => if vs = 16 then do
      let v ← take 16
      if h : v.length = 16 then pure (.bin128 id ⟨v, h⟩) else panic
    else fail .corruptedData
  | .ilint id _ => do let v ← ilint; pure (.ilint id v)
  | .signedILInt id _ => do let v ← ilint; pure (.signedILInt id (ILInt.decodeSign v))
  | .raw id _ => do let v ← bytes vs; pure (.raw id v)
  | .byteArray _ => do let v ← bytes vs; pure (.byteArray v)
  | .string id _ => do let s ← utf8 vs; pure (.string id s)
  | .bigInt _ => do let v ← bytes vs; pure (.bigInt v)
  | .bigDec id _ _ => if 4 ≤ vs then do
      let scale ← i32
      let v ← bytes (vs - 4)
      pure (.bigDec id scale v)
    else fail .corruptedData
  | .ilintArray id _ => do let v ← ilintArray vs; pure (.ilintArray id v)
  | .range id _ _ => do let r ← range vs; pure (.range id r.1 r.2)
  | .version id _ _ _ _ => if vs = 16 then do
      let a ← i32
      let b ← i32
      let c ← i32
      let d ← i32
      pure (.version id a b c d)
    else fail .corruptedData
  | .oid id _ => do let v ← ilintArray vs; pure (.oid id v)
  | .strDict id _ => do let v ← strDict vs; pure (.strDict id v)
  | .payload id p => do let p' ← rprog f (TagPayload.deserialize p vs); pure (.payload id p')

/-- Tags until the region is empty. -/
def tagsWhile (f : Parser (Tag P)) (slack : Nat) : Nat → List (Tag P) → Parser (List (Tag P))
  | 0, _ => diverge
  | fuel + 1, acc => fun bs =>
    if bs.length + slack = 0 then .ok acc bs
    else (do
      let t ← f
      tagsWhile f slack fuel (acc ++ [t])) bs

def tags (f : Parser (Tag P)) : Nat → List (Tag P) → Parser (List (Tag P))
  | 0, acc => pure acc
  | n + 1, acc => do
    let t ← f
    tags f n (acc ++ [t])

def entries (f : Parser (Tag P)) : Nat → List (String × Tag P) → Parser (List (String × Tag P))
  | 0, acc => pure acc
  | n + 1, acc => do
    let k ← stringTag
    let v ← f
    entries f n (HMap.insert k v acc)

def seq (f : Parser (Tag P)) (vs : Nat) : Parser (List (Tag P)) :=
  limited vs fun slack => tagsWhile f slack (vs + 1) []

def array (f : Parser (Tag P)) (vs : Nat) : Parser (List (Tag P)) :=
  limited vs fun slack => do
    let count ← ilint
    if count.toNat > vs then fail .corruptedData
    else if 16 * count.toNat ≤ Env.allocMax then do
      let r ← tags f count.toNat []
      ensureEmpty slack
      pure r
    else panic

def dict (f : Parser (Tag P)) (vs : Nat) : Parser (List (String × Tag P)) :=
  limited vs fun slack => do
    let count ← ilint
    let r ← entries f count.toNat []
    ensureEmpty slack
    pure r

def tagValue [TagPayload P] (f : Option (Tag P) → Parser (Tag P)) (vs : Nat) : Tag P → Parser (Tag P)
  | .atom a => do let a' ← atomValue f vs a; pure (.atom a')
  | .seq id _ => do let ts ← seq (f none) vs; pure (.seq id ts)
  | .array id _ => do let ts ← array (f none) vs; pure (.array id ts)
  | .dict id _ => do let es ← dict (f none) vs; pure (.dict id es)

def tagSize (id : UInt64) : Parser Nat := do
  let size ← if isImplicitTag id then pure (implicitTagSize id) else ilint
  lift (tagSizeToUsize size)

/-- The final emptiness check. -/
def checkEmpty (slack : Nat) (t : Tag P) : Parser (Tag P) := fun bs =>
  if t.id ≠ Id.ilint ∧ t.id ≠ Id.signedILInt ∧ bs.length + slack ≠ 0 then .fail .corruptedData else .ok t bs

/-- The region of the value and the final emptiness check. -/
def tagValueInto [TagPayload P] (f : Option (Tag P) → Parser (Tag P)) (size : Nat) (t : Tag P) : Parser (Tag P) :=
  limited size fun slack => tagValue f size t >>= checkEmpty slack

def tag [TagPayload P] (e : Engine P) : Nat → Option (Tag P) → Parser (Tag P)
  | 0, _ => diverge
  | fuel + 1, none => do
    let id ← ilint
    let size ← tagSize id
    let t ← lift (e.createTag id)
    match t with
    | none => fail .unknownTag
    | some t => tagValueInto (tag e fuel) size t
  | fuel + 1, some t => do
    let id ← ilint
    if id ≠ t.id then fail .unexpectedTagType
    else do
      let size ← tagSize id
      tagValueInto (tag e fuel) size t

end Parser

set_option linter.unusedSectionVars false
section
variable {P σ : Type} [Env] [Reader σ] {V : View σ}

theorem Sim.bytes (n : Nat) : Sim V (Ser.deserializeBytes n : Act TagErr σ Bytes) (Parser.bytes n) := by
  unfold Ser.deserializeBytes Parser.bytes Data.alloc
  split
  · exact Sim.take n
  · exact Sim.panic

theorem Sim.utf8 (n : Nat) : Sim V (do
    let tmp ← (Ser.deserializeBytes n : Act TagErr σ Bytes)
    match fromUtf8 tmp with
    | some s => Pure.pure s
    | none => Act.fail .corruptedData) (Parser.utf8 n) := by
  refine Sim.bind (Sim.bytes n) fun tmp => ?_
  cases fromUtf8 tmp with
  | none => exact Sim.fail _
  | some s => exact Sim.pure _

theorem Sim.stringTag : Sim V (deserializeStringTag : Act TagErr σ String) Parser.stringTag := by
  refine Sim.bind Sim.ilint fun id => ?_
  split
  · exact Sim.fail _
  · exact Sim.bind Sim.ilint fun len => Sim.bind (Sim.lift _) fun n => Sim.utf8 n

theorem SimS.bytesIntoVec (n : Nat) : SimS V (deserializeBytesIntoVec n : Act TagErr (Bytes × σ) Unit)
    (fun _ => Parser.bytes n) := by
  have h := SimS.alloc (V := V) 1 n (SimS.modify (resizeZ · n)
    (SimS.onReader (Sim.take (V := V) n) fun bs => SimS.setSelf bs))
  intro t s bs hR
  have := h t s bs hR
  show MatchesS V _ (Parser.bytes n bs)
  unfold Parser.bytes
  simp only [Parser.bind_pure] at this
  exact this

theorem sim_rprog {f : FactoryDeser P} {pf : Option (Tag P) → Parser (Tag P)} (hf : ∀ o, Sim V (f σ o) (pf o)) (r : RProg P) :
    SimS V (RProg.run f r : Act TagErr (P × σ) Unit) (fun _ => Parser.rprog pf r) := by
  induction r with
  | done r p =>
    intro t s bs hR
    cases r with
    | ok a => exact ⟨s, rfl, hR⟩
    | err e => exact ⟨p, s, rfl⟩
    | panic => exact ⟨p, s, rfl⟩
    | diverge => exact ⟨p, s, rfl⟩
  | read k ih => exact SimS.onReader Sim.byte ih
  | readAll n k ih => exact SimS.onReader (Sim.take n) ih
  | deser k ih => exact SimS.onReader (hf none) ih
  | into t k ih => exact SimS.onReader (hf (some t)) ih

theorem sim_ilints (n : Nat) : SimS V (Atom.pushILInts n : Act TagErr (List UInt64 × σ) Unit)
    (fun acc => Parser.ilints n acc) := by
  induction n with
  | zero => exact SimS.pure
  | succ n ih => exact SimS.onReader Sim.ilint fun v => SimS.modify _ ih

theorem sim_ilintArray (vs : Nat) : SimS V (Atom.deserializeILIntArray vs : Act TagErr (List UInt64 × σ) Unit)
    (fun _ => Parser.ilintArray vs) := by
  refine SimS.withLimited vs fun slack D => ?_
  refine SimS.onReader Sim.ilint fun count => ?_
  split
  · exact SimS.fail _
  · exact SimS.set [] (SimS.alloc 8 _ (SimS.bind (sim_ilints _) (SimS.ensureEmpty slack D)))

theorem sim_strEntries (n : Nat) :
    SimS V (Atom.insertStrEntries n : Act TagErr (List (String × String) × σ) Unit)
    (fun acc => Parser.strEntries n acc) := by
  induction n with
  | zero => exact SimS.pure
  | succ n ih =>
    exact SimS.onReader Sim.stringTag fun k => SimS.onReader Sim.stringTag fun v => SimS.modify _ ih

theorem sim_strDict (vs : Nat) :
    SimS V (Atom.deserializeStrDict vs : Act TagErr (List (String × String) × σ) Unit)
    (fun _ => Parser.strDict vs) := by
  refine SimS.withLimited vs fun slack D => ?_
  refine SimS.onReader Sim.ilint fun count => ?_
  exact SimS.set [] (SimS.bind (sim_strEntries _) (SimS.ensureEmpty slack D))

theorem sim_range (vs : Nat) :
    SimS V (Atom.deserializeRange vs : Act TagErr ((UInt64 × UInt16) × σ) Unit)
    (fun _ => Parser.range vs) := by
  refine SimS.withLimited vs fun slack D => ?_
  refine SimS.onReader Sim.ilint fun start => ?_
  have h := SimS.modify (V := limView V slack D) (fun p : UInt64 × UInt16 => (start, p.2))
    (SimS.onReader (Sim.map_take (V := limView V slack D) 2 (fun t => UInt16.ofNat (fromBE t)) (m := Data.readU16) rfl)
      fun count => SimS.modify (fun p => (p.1, count)) (SimS.ensureEmpty slack D))
  simpa only [Parser.bind_assoc, Parser.pure_bind] using h

theorem sim_i32 : Sim V (tagIo Data.readI32 : Act TagErr σ Int32) Parser.i32 :=
  Sim.map_take 4 (fun t => (UInt32.ofNat (fromBE t)).toInt32) rfl

theorem sim_fixed {α : Type} (vs n : Nat) (g : Bytes → α) (wrap : α → Atom P) {m : Act IoErr σ α}
    (hm : m = (do let t ← Reader.readAll n; Pure.pure (g t))) :
    SimS V (do
      Act.guardE (vs = n) .corruptedData
      let v ← onReader (tagIo m)
      setSelf (wrap v)) (fun _ => Parser.fixed vs n fun t => wrap (g t)) := by
  have h := SimS.guard (V := V) (vs = n) .corruptedData
    (SimS.onReader (Sim.map_take (V := V) n g hm) fun v => SimS.setSelf (wrap v))
  simpa only [Parser.bind_assoc, Parser.pure_bind, Parser.fixed] using h

/-- A simulation for one initial value. -/
def MatchesAt {σ τ : Type} [Reader σ] (V : View σ) (t : τ) (m : Act TagErr (τ × σ) Unit) (p : Parser τ) : Prop :=
  ∀ s bs, V.R s bs → MatchesS V (m (t, s)) (p bs)

theorem SimS.at {σ τ : Type} [Reader σ] {V : View σ} {m : Act TagErr (τ × σ) Unit} {p : τ → Parser τ}
    (h : SimS V m p) (t : τ) : MatchesAt V t m (p t) := h t

theorem sim_i8 : Sim V (tagIo Data.readI8 : Act TagErr σ Int8)
    (Parser.byte >>= fun v => Pure.pure v.toInt8) := by
  simp only [Data.readI8, tagIo, Act.mapErr_bind, Act.mapErr_pure]
  exact Sim.bind Sim.byte fun _ => Sim.pure _

theorem SimS.setc {τ : Type} {k : Act TagErr (τ × σ) Unit} {p : Parser τ} (t0 : τ) (hk : SimS V k fun _ => p) :
    SimS V (Verif.setSelf t0 >>= fun _ => k) (fun _ => p) :=
  fun _ s bs hR => hk t0 s bs hR

theorem sim_atomValue [TagPayload P] {f : FactoryDeser P} {pf : Option (Tag P) → Parser (Tag P)} (hf : ∀ o, Sim V (f σ o) (pf o)) (vs : Nat)
    (a : Atom P) :
    MatchesAt V a (Atom.deserializeValue f vs a : Act TagErr (Atom P × σ) Unit) (Parser.atomValue pf vs a) := by
  cases a with
  | null id => exact (SimS.guard' (V := V) (vs = 0) .corruptedData).at _
  | bool id b =>
    refine SimS.at (p := fun _ => Parser.atomValue pf vs _) ?_ _
    unfold Atom.deserializeValue Parser.atomValue
    refine (SimS.guard (V := V) (vs = 1) .corruptedData (SimS.onReader Sim.byte fun v => ?_))
    exact SimS.ite _ (SimS.setSelf _) (SimS.ite _ (SimS.setSelf _) (SimS.fail _))
  | int8 id v => 
    have h := SimS.guard (V := V) (vs = 1) .corruptedData
      (SimS.onReader (τ := Atom P) (sim_i8 (V := V)) fun v => SimS.setSelf (.int8 id v))
    simpa only [Parser.bind_assoc, Parser.pure_bind, Atom.deserializeValue, Parser.atomValue] using h.at _
  | uint8 id v =>
    exact (SimS.guard (V := V) (vs = 1) .corruptedData (SimS.onReader Sim.byte fun v => SimS.setSelf _)).at _
  | int16 id v => exact (sim_fixed vs 2 _ (.int16 id) rfl).at _
  | uint16 id v => exact (sim_fixed vs 2 _ (.uint16 id) rfl).at _
  | int32 id v => exact (sim_fixed vs 4 _ (.int32 id) rfl).at _
  | uint32 id v => exact (sim_fixed vs 4 _ (.uint32 id) rfl).at _
  | int64 id v => exact (sim_fixed vs 8 _ (.int64 id) rfl).at _
  | uint64 id v => exact (sim_fixed vs 8 _ (.uint64 id) rfl).at _
  | bin32 id v => exact (sim_fixed vs 4 _ (.bin32 id) rfl).at _
  | bin64 id v => exact (sim_fixed vs 8 _ (.bin64 id) rfl).at _
  | bin128 id v =>
    refine SimS.at (p := fun _ => Parser.atomValue pf vs _) ?_ _
    unfold Atom.deserializeValue Parser.atomValue
    refine (SimS.guard (V := V) (vs = 16) .corruptedData (SimS.onReader (Sim.take 16) fun v => ?_))
    split
    · exact SimS.setSelf _
    · exact SimS.panic
  | ilint id v => exact (SimS.onReader Sim.ilint fun v => SimS.setSelf _).at _
  | signedILInt id v =>
    have h := SimS.onReader (τ := Atom P) (Sim.signedILInt (V := V)) fun v => SimS.setSelf (.signedILInt id v)
    simpa only [Parser.bind_assoc, Parser.pure_bind, Atom.deserializeValue, Parser.atomValue] using h.at _
  | raw id v => exact (SimS.zoom (Atom.raw id) v (SimS.bytesIntoVec vs)).at _
  | byteArray v => exact (SimS.zoom (Atom.byteArray) v (SimS.bytesIntoVec vs)).at _
  | bigInt v => exact (SimS.zoom (Atom.bigInt) v (SimS.bytesIntoVec vs)).at _
  | string id s =>
    refine SimS.at (p := fun _ => Parser.atomValue pf vs _) ?_ _
    simp only [Atom.deserializeValue, Parser.atomValue, Parser.utf8, Parser.bind_assoc]
    refine SimS.onReader (Sim.bytes (V := V) vs) fun tmp => ?_
    cases fromUtf8 tmp with
    | none => exact SimS.fail _
    | some s => exact SimS.setSelf _
  | bigDec id sc v =>
    refine SimS.at (p := fun _ => Parser.atomValue pf vs _) ?_ _
    unfold Atom.deserializeValue Parser.atomValue
    refine SimS.guard (V := V) (4 ≤ vs) .corruptedData (SimS.onReader (sim_i32 (V := V)) fun scale => ?_)
    exact SimS.setc _ (SimS.zoom (Atom.bigDec id scale) v (SimS.bytesIntoVec (vs - 4)))
  | ilintArray id v => exact (SimS.zoom (Atom.ilintArray id) v (sim_ilintArray vs)).at _
  | range id a b => exact (SimS.zoom (fun p => Atom.range id p.1 p.2) (a, b) (sim_range (V := V) vs)).at _
  | version id a b c d =>
    refine SimS.at (p := fun _ => Parser.atomValue pf vs (.version id a b c d)) ?_ _
    unfold Atom.deserializeValue Parser.atomValue
    refine SimS.guard (V := V) (vs = 16) .corruptedData (SimS.onReader (sim_i32 (V := V)) fun a' => ?_)
    refine SimS.setc _ (SimS.onReader (sim_i32 (V := V)) fun b' => ?_)
    refine SimS.setc _ (SimS.onReader (sim_i32 (V := V)) fun c' => ?_)
    exact SimS.setc _ (SimS.onReader (sim_i32 (V := V)) fun d' => SimS.setSelf _)
  | oid id v => exact (SimS.zoom (Atom.oid id) v (sim_ilintArray vs)).at _
  | strDict id v => exact (SimS.zoom (Atom.strDict id) v (sim_strDict vs)).at _
  | payload id p => exact (SimS.zoom (Atom.payload id) p (sim_rprog hf _)).at _

/-- A factory that behaves as a parser on every well-behaved reader. -/
def FSim (f : FactoryDeser P) (pf : Option (Tag P) → Parser (Tag P)) : Prop :=
  ∀ (σ : Type) [Reader σ] (V : View σ) (o : Option (Tag P)), Sim V (f σ o) (pf o)

theorem sim_tagsWhile {f : FactoryDeser P} {pf : Option (Tag P) → Parser (Tag P)} (hf : FSim f pf) (slack : Nat) (D : Bytes)
    (fuel : Nat) :
    SimS (limView V slack D) (Tag.pushWhileNotEmpty f fuel : Act TagErr (List (Tag P) × Limited σ) Unit)
      (fun acc => Parser.tagsWhile (pf none) slack fuel acc) := by
  induction fuel with
  | zero => exact SimS.diverge
  | succ n ih =>
    rintro acc l bs ⟨hl, hR, hs⟩
    have h := SimS.onReader (τ := List (Tag P)) (hf _ (limView V slack D) none) fun t => SimS.modify (· ++ [t]) ih
    have := h acc l bs ⟨hl, hR, hs⟩
    show MatchesS _ _ (Parser.tagsWhile (pf none) slack (n + 1) acc bs)
    unfold Tag.pushWhileNotEmpty Parser.tagsWhile
    by_cases hz : bs.length + slack = 0
    · rw [if_pos hz, if_pos (by simp [Limited.empty]; omega)]
      exact ⟨l, rfl, hl, hR, hs⟩
    · rw [if_neg hz, if_neg (by simp [Limited.empty]; omega)]
      exact this

theorem sim_seq {f : FactoryDeser P} {pf : Option (Tag P) → Parser (Tag P)} (hf : FSim f pf) (vs : Nat) :
    SimS V (Tag.deserializeSeq f vs : Act TagErr (List (Tag P) × σ) Unit) (fun _ => Parser.seq (pf none) vs) :=
  SimS.withLimited vs fun slack D => SimS.set [] (sim_tagsWhile hf slack D _)

theorem sim_tags {f : FactoryDeser P} {pf : Option (Tag P) → Parser (Tag P)} (hf : FSim f pf) (n : Nat) :
    SimS V (Tag.pushTags f n : Act TagErr (List (Tag P) × σ) Unit) (fun acc => Parser.tags (pf none) n acc) := by
  induction n with
  | zero => exact SimS.pure
  | succ n ih => exact SimS.onReader (hf _ V none) fun t => SimS.modify (· ++ [t]) ih

theorem sim_array {f : FactoryDeser P} {pf : Option (Tag P) → Parser (Tag P)} (hf : FSim f pf) (vs : Nat) :
    SimS V (Tag.deserializeArray f vs : Act TagErr (List (Tag P) × σ) Unit) (fun _ => Parser.array (pf none) vs) := by
  refine SimS.withLimited vs fun slack D => ?_
  refine SimS.onReader Sim.ilint fun count => ?_
  split
  · exact SimS.fail _
  · exact SimS.set [] (SimS.alloc 16 _ (SimS.bind (sim_tags hf _) (SimS.ensureEmpty slack D)))

theorem sim_entries {f : FactoryDeser P} {pf : Option (Tag P) → Parser (Tag P)} (hf : FSim f pf) (n : Nat) :
    SimS V (Tag.insertEntries f n : Act TagErr (List (String × Tag P) × σ) Unit)
      (fun acc => Parser.entries (pf none) n acc) := by
  induction n with
  | zero => exact SimS.pure
  | succ n ih => exact SimS.onReader Sim.stringTag fun k => SimS.onReader (hf _ V none) fun v => SimS.modify _ ih

theorem sim_dict {f : FactoryDeser P} {pf : Option (Tag P) → Parser (Tag P)} (hf : FSim f pf) (vs : Nat) :
    SimS V (Tag.deserializeDict f vs : Act TagErr (List (String × Tag P) × σ) Unit)
      (fun _ => Parser.dict (pf none) vs) := by
  refine SimS.withLimited vs fun slack D => ?_
  refine SimS.onReader Sim.ilint fun count => ?_
  exact SimS.set [] (SimS.bind (sim_entries hf _) (SimS.ensureEmpty slack D))

theorem MatchesAt.zoom {τ τ' : Type} {m : Act TagErr (τ × σ) Unit} {p : Parser τ} (wrap : τ → τ') (t0 : τ) (t1 : τ')
    (h : MatchesAt V t0 m p) :
    MatchesAt V t1 (zoom wrap t0 m) (p >>= fun t => Pure.pure (wrap t)) := by
  intro s bs hR
  have := h s bs hR
  rw [Parser.bind_apply]
  cases hp : p bs with
  | ok a rest =>
    rw [hp] at this
    obtain ⟨s', hm, hR'⟩ := this
    exact ⟨s', by simp [Verif.zoom, hm], hR'⟩
  | short =>
    rw [hp] at this
    obtain ⟨e, t', s', hm, he⟩ := this
    exact ⟨e, wrap t', s', by simp [Verif.zoom, hm], he⟩
  | fail e =>
    rw [hp] at this
    obtain ⟨t', s', hm⟩ := this
    exact ⟨wrap t', s', by simp [Verif.zoom, hm]⟩
  | panic =>
    rw [hp] at this
    obtain ⟨t', s', hm⟩ := this
    exact ⟨wrap t', s', by simp [Verif.zoom, hm]⟩
  | diverge =>
    rw [hp] at this
    obtain ⟨t', s', hm⟩ := this
    exact ⟨wrap t', s', by simp [Verif.zoom, hm]⟩

theorem sim_tagValue [TagPayload P] {f : FactoryDeser P} {pf : Option (Tag P) → Parser (Tag P)} (hf : FSim f pf) (vs : Nat)
    (t : Tag P) :
    MatchesAt V t (Tag.deserializeValue f vs t : Act TagErr (Tag P × σ) Unit) (Parser.tagValue pf vs t) := by
  cases t with
  | atom a => exact MatchesAt.zoom Tag.atom a _ (sim_atomValue (hf _ V) vs a)
  | seq id ts => exact (SimS.zoom (Tag.seq id) ts (sim_seq hf vs)).at _
  | array id ts => exact (SimS.zoom (Tag.array id) ts (sim_array hf vs)).at _
  | dict id es => exact (SimS.zoom (Tag.dict id) es (sim_dict hf vs)).at _

theorem sim_checkEmpty (slack : Nat) (D : Bytes) :
    SimS (limView V slack D) (Factory.checkEmpty : Act TagErr (Tag P × Limited σ) Unit)
      (Parser.checkEmpty slack) := by
  rintro t l bs ⟨hl, hR, hs⟩
  have he : l.empty = false ↔ bs.length + slack ≠ 0 := by
    simp only [Limited.empty, beq_eq_false_iff_ne]; omega
  show MatchesS _ _ (Parser.checkEmpty slack t bs)
  simp only [Factory.checkEmpty, he, Parser.checkEmpty]
  split
  · exact ⟨t, l, rfl⟩
  · exact ⟨l, rfl, hl, hR, hs⟩

theorem sim_tagValueInto [TagPayload P] {f : FactoryDeser P} {pf : Option (Tag P) → Parser (Tag P)} (hf : FSim f pf) (size : Nat) :
    SimS V (Factory.deserializeTagValueInto f size : Act TagErr (Tag P × σ) Unit)
      (fun t => Parser.tagValueInto pf size t) := by
  refine SimS.withLimited size fun slack D => ?_
  intro t l bs hR
  have h := sim_tagValue (V := limView V slack D) hf size t l bs hR
  have hc := sim_checkEmpty (P := P) (V := V) slack D
  show MatchesS _ _ ((Parser.tagValue pf size t >>= Parser.checkEmpty slack) bs)
  rw [Parser.bind_apply]
  cases hp : Parser.tagValue pf size t bs with
  | ok a rest =>
    rw [hp] at h
    obtain ⟨s', hm, hR'⟩ := h
    simp only [Act.bind_ok hm]
    exact hc a s' rest hR'
  | short =>
    rw [hp] at h
    obtain ⟨e, t', s', hm, he⟩ := h
    exact ⟨e, t', s', Act.bind_err hm, he⟩
  | fail e =>
    rw [hp] at h
    obtain ⟨t', s', hm⟩ := h
    exact ⟨t', s', Act.bind_err hm⟩
  | panic =>
    rw [hp] at h
    obtain ⟨t', s', hm⟩ := h
    exact ⟨t', s', Act.bind_panic hm⟩
  | diverge =>
    rw [hp] at h
    obtain ⟨t', s', hm⟩ := h
    exact ⟨t', s', Act.bind_diverge hm⟩

theorem sim_tagSize (id : UInt64) : Sim V (Factory.deserializeTagSize id : Act TagErr σ Nat) (Parser.tagSize id) := by
  unfold Factory.deserializeTagSize Parser.tagSize
  split
  · exact Sim.lift _
  · exact Sim.bind Sim.ilint fun _ => Sim.lift _

theorem sim_deserializeFuel [TagPayload P] (e : Engine P) (fuel : Nat) :
    FSim (Factory.deserializeFuel e fuel) (Parser.tag e fuel) := by
  induction fuel with
  | zero => intro σ _ V o; exact Sim.diverge
  | succ n ih =>
    have hv : ∀ (σ : Type) [Reader σ] (V : View σ) (size : Nat) (t : Tag P),
        Sim V (fun s : σ => match Factory.deserializeTagValueInto (Factory.deserializeFuel e n) size (t, s) with
          | (r, (t, s')) => (r.map fun _ => t, s')) (Parser.tagValueInto (Parser.tag e n) size t) := by
      intro σ _ V size t s bs hR
      have h : MatchesS V _ (Parser.tagValueInto (Parser.tag e n) size t bs) :=
        sim_tagValueInto (V := V) ih size t s bs hR
      revert h
      cases Parser.tagValueInto (Parser.tag e n) size t bs with
      | ok a rest => rintro ⟨s', hm, hR'⟩; exact ⟨s', by simp [hm, Res.map], hR'⟩
      | short => rintro ⟨e, t', s', hm, he⟩; exact ⟨e, s', by simp [hm, Res.map], he⟩
      | fail e => rintro ⟨t', s', hm⟩; exact ⟨s', by simp [hm, Res.map]⟩
      | panic => rintro ⟨t', s', hm⟩; exact ⟨s', by simp [hm, Res.map]⟩
      | diverge => rintro ⟨t', s', hm⟩; exact ⟨s', by simp [hm, Res.map]⟩
    intro σ _ V o
    cases o with
    | none =>
      refine Sim.bind Sim.ilint fun id => Sim.bind (sim_tagSize id) fun size => Sim.bind (Sim.lift _) fun t => ?_
      cases t with
      | none => exact Sim.fail _
      | some t => exact hv σ V size t
    | some t =>
      refine Sim.bind Sim.ilint fun id => ?_
      split
      · exact Sim.fail _
      · exact Sim.bind (sim_tagSize id) fun size => hv σ V size t

end
end Verif
