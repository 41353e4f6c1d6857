import Verif.Props.Values
/-!
# Reading strings and dictionaries (C39, C40, C52)
-/
namespace Verif.Props
open Verif Verif.Spec
variable {P : Type}

/-! ### C52 -/

/-- **C52** Any factory that makes a string tag for id 17, any reader.  If the id read is 17, the helper and the factory
do the same: same outcome, the string returned being the content of the tag returned, and the same reader afterwards. -/
theorem C52_deserialize [TagPayload P] [Env] (e : Engine P) (x₀ : String)
    (he : e.createTag Id.string = .ok (some (.atom (.string Id.string x₀)))) {σ : Type} [Reader σ] (s s₁ : σ)
    (h1 : (Ser.deserializeILInt : Act TagErr σ UInt64) s = (.ok Id.string, s₁)) :
    Factory.deserialize e σ s =
      ((deserializeStringTag s).1.map fun x => .atom (.string Id.string x), (deserializeStringTag s).2) := by
  have hs : (deserializeStringTag : Act TagErr σ String) s = (do
      let len ← Ser.deserializeILInt
      let usizeLen ← Act.lift (tagSizeToUsize len)
      let tmp ← Ser.deserializeBytes usizeLen
      match fromUtf8 tmp with
      | some s => pure s
      | none => Act.fail .corruptedData) s₁ := by
    unfold deserializeStringTag
    rw [Act.bind_ok h1, if_neg (by simp)]; rfl
  rw [hs]
  rcases h2 : (Ser.deserializeILInt : Act TagErr σ UInt64) s₁ with ⟨r, s₂⟩
  have hd : Factory.deserialize e σ s = (Factory.deserializeTagSize Id.string >>= fun size =>
      afterHeader e (Factory.methods e) Id.string size) s₁ := by
    rw [deserialize_rec]
    show (Ser.deserializeILInt >>= fun id => Factory.deserializeTagSize id >>= fun size =>
      afterHeader e (Factory.methods e) id size) s = _
    rw [Act.bind_ok h1]
  have hsz : (Factory.deserializeTagSize Id.string : Act TagErr σ Nat) =
      Ser.deserializeILInt >>= fun size => Act.lift (tagSizeToUsize size) := rfl
  rw [hd, hsz]
  cases r with
  | ok len =>
    have hh : Header s Id.string len.toNat s₂ := ⟨s₁, h1, .inr ⟨by decide, len, h2, rfl⟩⟩
    by_cases hm : len.toNat ≤ maxValue
    · have ht : tagSizeToUsize len = .ok len.toNat := by
        unfold tagSizeToUsize
        rw [if_neg]
        unfold maxValue at hm
        unfold maxTagSize; omega
      rw [← hsz, ← hd, deserialize_header e hh hm, afterHeader_some _ _ _ he, Act.bind_ok h2]
      have hl : (Act.lift (tagSizeToUsize len) : Act TagErr σ Nat) s₂ = (.ok len.toNat, s₂) := by rw [ht]; rfl
      rw [Act.bind_ok hl]
      unfold Factory.deserializeTagValueInto withLimited
      by_cases ha : 1 * len.toNat ≤ Env.allocMax
      · rcases hr : Reader.readAll len.toNat s₂ with ⟨r, s₃⟩
        have hrl : Reader.readAll len.toNat (⟨s₂, len.toNat⟩ : Limited σ)
            = (r, ⟨s₃, if r.isOk then 0 else len.toNat⟩) := by
          show Limited.readAll _ _ = _
          simp [Limited.readAll, Limited.canRead, hr]
        have hb : (Ser.deserializeBytes len.toNat : Act TagErr σ Bytes) s₂ = (r.mapErr .ioError, s₃) := by
          unfold Ser.deserializeBytes Data.alloc
          rw [if_pos ha, Act.pure_bind]
          simp only [tagIo, Act.mapErr_apply, hr]
        have hbl : (Ser.deserializeBytes len.toNat : Act TagErr (Limited σ) Bytes) ⟨s₂, len.toNat⟩
            = (r.mapErr .ioError, ⟨s₃, if r.isOk then 0 else len.toNat⟩) := by
          unfold Ser.deserializeBytes Data.alloc
          rw [if_pos ha, Act.pure_bind]
          simp only [tagIo, Act.mapErr_apply, hrl]
        simp only [Act.bind_apply, Tag.deserializeValue, zoom, Atom.deserializeValue, onReader, hb, hbl]
        cases r with
        | ok tmp =>
          simp only [Res.mapErr]
          cases fromUtf8 tmp with
          | none => rfl
          | some x => rfl
        | _ => rfl
      · have hb : (Ser.deserializeBytes len.toNat : Act TagErr σ Bytes) s₂ = (.panic, s₂) := by
          unfold Ser.deserializeBytes Data.alloc
          rw [if_neg ha]; rfl
        have hbl : (Ser.deserializeBytes len.toNat : Act TagErr (Limited σ) Bytes) ⟨s₂, len.toNat⟩
            = (.panic, ⟨s₂, len.toNat⟩) := by
          unfold Ser.deserializeBytes Data.alloc
          rw [if_neg ha]; rfl
        simp only [Act.bind_apply, Tag.deserializeValue, zoom, Atom.deserializeValue, onReader, hb, hbl]
        rfl
    · have ht : tagSizeToUsize len = .err .tagTooLarge := by
        unfold tagSizeToUsize
        rw [if_pos]
        unfold maxValue at hm
        unfold maxTagSize; omega
      rw [← hsz, ← hd, deserialize_too_large e hh (by omega), Act.bind_ok h2]
      have hl : (Act.lift (tagSizeToUsize len) : Act TagErr σ Nat) s₂ = (.err .tagTooLarge, s₂) := by rw [ht]; rfl
      rw [Act.bind_err hl]
      rfl
  | _ => simp only [Act.bind_apply, h2, Res.map]

/-- **C52** If another id is read, or no id can be read, the helper fails: with `CorruptedData`, or as reading the id
did. -/
theorem C52_other_id [Env] {σ : Type} [Reader σ] (s : σ) :
    match (Ser.deserializeILInt : Act TagErr σ UInt64) s with
    | (.ok id, s₁) => id ≠ 17 → deserializeStringTag s = (.err .corruptedData, s₁)
    | (.err x, s₁) => deserializeStringTag s = (.err x, s₁)
    | (.panic, s₁) => deserializeStringTag s = (.panic, s₁)
    | (.diverge, s₁) => deserializeStringTag s = (.diverge, s₁) := by
  rcases h : (Ser.deserializeILInt : Act TagErr σ UInt64) s with ⟨r, s₁⟩
  cases r with
  | ok id =>
    intro hi
    unfold deserializeStringTag
    rw [Act.bind_ok h, if_pos (show id ≠ Id.string from hi)]; rfl
  | err x => exact Act.bind_err h
  | panic => exact Act.bind_panic h
  | diverge => exact Act.bind_diverge h

/-- **C52** The variant that fills a given string does the same; the given string is replaced only on success. -/
theorem C52_into [Env] {σ : Type} [Reader σ] (s : σ) (out : String) :
    deserializeStringTagInto (out, s) = match deserializeStringTag s with
      | (.ok x, s') => (.ok (), (x, s'))
      | (.err e, s') => (.err e, (out, s'))
      | (.panic, s') => (.panic, (out, s'))
      | (.diverge, s') => (.diverge, (out, s')) := by
  unfold deserializeStringTagInto deserializeStringTag
  simp only [Act.bind_apply, onReader]
  rcases (Ser.deserializeILInt : Act TagErr σ UInt64) s with ⟨r, s₁⟩
  cases r with
  | ok id =>
    simp only
    by_cases hi : id ≠ Id.string
    · simp only [if_pos hi]; rfl
    · simp only [if_neg hi, Act.bind_apply, onReader]
      rcases (Ser.deserializeILInt : Act TagErr σ UInt64) s₁ with ⟨r, s₂⟩
      cases r with
      | ok len =>
        simp only [Act.lift]
        cases tagSizeToUsize len with
        | ok n =>
          simp only
          rcases (Ser.deserializeBytes n : Act TagErr σ Bytes) s₂ with ⟨r, s₃⟩
          cases r with
          | ok tmp =>
            simp only
            cases fromUtf8 tmp <;> rfl
          | _ => rfl
        | _ => rfl
      | _ => rfl
  | _ => rfl

example : (Engine.std true : Engine Empty).createTag Id.string = .ok (some (.atom (.string Id.string ""))) := rfl
example : (Ser.deserializeILInt : Act TagErr Script UInt64) ⟨[.ok 17, .ok 2, .ok 195, .ok 169]⟩
    = (.ok Id.string, ⟨[.ok 2, .ok 195, .ok 169]⟩) := rfl
example : @deserializeStringTag ⟨100⟩ ByteArrayReader _ (ByteArrayReader.new [17, 2, 195, 169, 5]) =
    (.ok "é", ⟨[17, 2, 195, 169, 5], 4⟩) := by decide +kernel

/-! ### C39 -/

/-- The reader in the state `s` delivers the entries `es`, each a string tag followed by a value, which leads to the
state `s'`. -/
inductive Entries [Env] {σ α : Type} [Reader σ] (value : Act TagErr σ α) : σ → List (String × α) → σ → Prop where
  | nil (s) : Entries value s [] s
  | cons {s s₁ s₂ s' k v es} : deserializeStringTag s = (.ok k, s₁) → value s₁ = (.ok v, s₂) →
      Entries value s₂ es s' → Entries value s ((k, v) :: es) s'

/-- The value of the last entry with the key `k`. -/
def lastValue {α : Type} (k : String) (es : List (String × α)) : Option α := (es.reverse.find? (·.1 = k)).map (·.2)

/-- The map has no key twice and maps each key to the value of its last entry. -/
def LastWins {α : Type} (m es : List (String × α)) : Prop :=
  (m.map (·.1)).Nodup ∧ ∀ k v, (k, v) ∈ m ↔ lastValue k es = some v

/-- All entries put into a map, in order. -/
def collect {α : Type} (m es : List (String × α)) : List (String × α) := es.foldl (fun m e => HMap.insert e.1 e.2 m) m

theorem collect_nodup {α : Type} (es m : List (String × α)) (h : (m.map (·.1)).Nodup) :
    ((collect m es).map (·.1)).Nodup := by
  induction es generalizing m with
  | nil => exact h
  | cons e es ih => exact ih _ (HMap.nodup_insert h _ _)

theorem lastValue_cons {α : Type} (k : String) (e : String × α) (es : List (String × α)) :
    lastValue k (e :: es) = (lastValue k es).or (if k = e.1 then some e.2 else none) := by
  unfold lastValue
  rw [List.reverse_cons, List.find?_append]
  cases hf : List.find? (fun x => decide (x.1 = k)) es.reverse with
  | some x => simp
  | none =>
    by_cases hk : e.1 = k
    · simp [hk]
    · have : k ≠ e.1 := fun h => hk h.symm
      simp [hk, this]

theorem collect_get {α : Type} (k : String) (es m : List (String × α)) :
    HMap.get k (collect m es) = (lastValue k es).or (HMap.get k m) := by
  induction es generalizing m with
  | nil => simp [collect, lastValue]
  | cons e es ih =>
    have := ih (HMap.insert e.1 e.2 m)
    rw [show collect m (e :: es) = collect (HMap.insert e.1 e.2 m) es from rfl, this, lastValue_cons, HMap.get_insert,
      Option.or_assoc]
    congr 1
    by_cases h : k = e.1
    · rw [if_pos h, if_pos h]; rfl
    · rw [if_neg h, if_neg h]; rfl

theorem collect_lastWins {α : Type} (es : List (String × α)) : LastWins (collect [] es) es := by
  refine ⟨collect_nodup es [] (by simp), fun k v => ?_⟩
  have := collect_get k es []
  rw [show HMap.get k ([] : List (String × α)) = none from rfl, Option.or_none] at this
  rw [← this]
  exact ⟨HMap.get_eq_some_of_mem (collect_nodup es [] (by simp)), HMap.mem_of_get⟩

theorem collect_map {α β : Type} (g : α → β) (es m : List (String × α)) :
    collect (m.map fun e => (e.1, g e.2)) (es.map fun e => (e.1, g e.2)) = (collect m es).map fun e => (e.1, g e.2) := by
  induction es generalizing m with
  | nil => rfl
  | cons e es ih =>
    have hi : ∀ m : List (String × α), HMap.insert e.1 (g e.2) (m.map fun e => (e.1, g e.2))
        = (HMap.insert e.1 e.2 m).map fun e => (e.1, g e.2) := by
      intro m
      induction m with
      | nil => rfl
      | cons x m ih =>
        obtain ⟨k, v⟩ := x
        simp only [List.map_cons, HMap.insert]
        split
        · rfl
        · simp only [List.map_cons, ih]
    show collect (HMap.insert e.1 (g e.2) (m.map fun e => (e.1, g e.2))) _ = _
    rw [hi, ih]
    rfl

section
variable [Env] {σ α : Type} [Reader σ]

/-- The loops of both dictionaries. -/
def insertLoop (value : Act TagErr σ α) : Nat → Act TagErr (List (String × α) × σ) Unit
  | 0 => pure ()
  | n + 1 => do
    let k ← onReader deserializeStringTag
    let v ← onReader value
    modifySelf (HMap.insert k v)
    insertLoop value n

/-- The value of both dictionaries. -/
def dictValue (value : Act TagErr (Limited σ) α) (size : Nat) : Act TagErr (List (String × α) × σ) Unit :=
  withLimited size do
    let count ← onReader Ser.deserializeILInt
    setSelf []
    insertLoop value count.toNat
    ensureEmpty

theorem insertEntries_loop (f : FactoryDeser P) (n : Nat) :
    (Tag.insertEntries f n : Act TagErr (List (String × Tag P) × σ) Unit) = insertLoop (f σ none) n := by
  induction n with
  | zero => rfl
  | succ n ih => unfold Tag.insertEntries insertLoop; rw [ih]

theorem insertStrEntries_loop (n : Nat) :
    (Atom.insertStrEntries n : Act TagErr (List (String × String) × σ) Unit) = insertLoop deserializeStringTag n := by
  induction n with
  | zero => rfl
  | succ n ih => unfold Atom.insertStrEntries insertLoop; rw [ih]

theorem deserializeDict_eq (f : FactoryDeser P) (size : Nat) :
    (Tag.deserializeDict f size : Act TagErr (List (String × Tag P) × σ) Unit) = dictValue (f (Limited σ) none) size := by
  unfold Tag.deserializeDict dictValue
  simp only [insertEntries_loop]

theorem deserializeStrDict_eq (size : Nat) :
    (Atom.deserializeStrDict size : Act TagErr (List (String × String) × σ) Unit)
      = dictValue deserializeStringTag size := by
  unfold Atom.deserializeStrDict dictValue
  simp only [insertStrEntries_loop]

omit [Env] [Reader σ] in
theorem onReader_eq {τ β : Type} {x : Act TagErr σ β} {t : τ} {s s' : σ} {r : Res TagErr β} (h : x s = (r, s')) :
    onReader x (t, s) = (r, (t, s')) := by unfold onReader; simp only [h]

theorem insertLoop_iff (value : Act TagErr σ α) (n : Nat) (m m' : List (String × α)) (s s' : σ) :
    insertLoop value n (m, s) = (.ok (), (m', s')) ↔
      ∃ es, Entries value s es s' ∧ es.length = n ∧ m' = collect m es := by
  induction n generalizing m s with
  | zero =>
    constructor
    · intro h
      simp only [insertLoop, Act.pure_apply, Prod.mk.injEq, true_and] at h
      obtain ⟨rfl, rfl⟩ := h
      exact ⟨[], .nil _, rfl, rfl⟩
    · rintro ⟨es, h1, h2, rfl⟩
      cases h1 with
      | nil => rfl
      | cons => simp at h2
  | succ n ih =>
    unfold insertLoop
    constructor
    · intro h
      rw [Act.bind_apply] at h
      rcases hk : (deserializeStringTag : Act TagErr σ String) s with ⟨r, s₁⟩
      rw [onReader_eq hk] at h
      cases r with
      | ok k =>
        simp only [Act.bind_apply] at h
        rcases hv : value s₁ with ⟨r, s₂⟩
        rw [onReader_eq hv] at h
        cases r with
        | ok v =>
          simp only [modifySelf] at h
          obtain ⟨es, h1, h2, h3⟩ := (ih _ _).mp h
          exact ⟨(k, v) :: es, .cons hk hv h1, by simp [h2], h3⟩
        | _ => simp at h
      | _ => simp at h
    · rintro ⟨es, h1, h2, h3⟩
      cases h1 with
      | nil => simp at h2
      | @cons s s₁ s₂ s' k v es hk hv h1 =>
        rw [Act.bind_ok (onReader_eq hk), Act.bind_ok (onReader_eq hv)]
        simp only [Act.bind_apply, modifySelf]
        exact (ih _ _).mpr ⟨es, h1, by simpa using h2, h3⟩

theorem dictValue_iff (value : Act TagErr (Limited σ) α) (size : Nat) (m₀ m : List (String × α)) (s s' : σ) :
    dictValue value size (m₀, s) = (.ok (), (m, s')) ↔
      ∃ count l₁ es l₂, (Ser.deserializeILInt : Act TagErr (Limited σ) UInt64) ⟨s, size⟩ = (.ok count, l₁) ∧
        Entries value l₁ es l₂ ∧ es.length = count.toNat ∧ l₂ = ⟨s', 0⟩ ∧ m = collect [] es := by
  unfold dictValue withLimited
  constructor
  · intro h
    simp only [Act.bind_apply] at h
    rcases hc : (Ser.deserializeILInt : Act TagErr (Limited σ) UInt64) ⟨s, size⟩ with ⟨r, l₁⟩
    rw [onReader_eq hc] at h
    cases r with
    | ok count =>
      simp only [setSelf] at h
      rcases hl : insertLoop value count.toNat ([], l₁) with ⟨r, m', l₂⟩
      rw [hl] at h
      cases r with
      | ok u =>
        simp only [ensureEmpty] at h
        obtain ⟨es, h1, h2, h3⟩ := (insertLoop_iff _ _ _ _ _ _).mp hl
        obtain ⟨src, av⟩ := l₂
        by_cases hz : (⟨src, av⟩ : Limited σ).empty = true
        · simp only [if_pos hz, Prod.mk.injEq, true_and] at h
          obtain ⟨rfl, rfl⟩ := h
          have : av = 0 := by simpa [Limited.empty] using hz
          subst this
          exact ⟨count, l₁, es, _, rfl, h1, h2, rfl, h3⟩
        · simp [if_neg hz] at h
      | _ => simp at h
    | _ => simp at h
  · rintro ⟨count, l₁, es, l₂, hc, h1, h2, rfl, rfl⟩
    simp only [Act.bind_apply, onReader_eq hc, setSelf]
    rw [(insertLoop_iff value count.toNat [] _ l₁ ⟨s', 0⟩).mpr ⟨es, h1, h2, rfl⟩]
    rfl

end

/-- **C39** Any factory, reader, size and previous content.  Reading the value of a dictionary succeeds exactly when the
reader, within the size, delivers a count followed by that many entries and nothing more; each key ends up with the value
of its last entry, and there is no other entry. -/
theorem C39_dict_last_wins [TagPayload P] [Env] (f : FactoryDeser P) (id : UInt64) (m₀ : List (String × Tag P))
    (size : Nat) {σ : Type} [Reader σ] (s s' : σ) :
    (∀ t, (Tag.dict id m₀).deserializeValue f size (.dict id m₀, s) = (.ok (), (t, s')) →
      ∃ count l₁ es m, (Ser.deserializeILInt : Act TagErr (Limited σ) UInt64) ⟨s, size⟩ = (.ok count, l₁) ∧
        Entries (f (Limited σ) none) l₁ es ⟨s', 0⟩ ∧ es.length = count.toNat ∧ t = .dict id m ∧ LastWins m es) ∧
    (∀ count l₁ es, (Ser.deserializeILInt : Act TagErr (Limited σ) UInt64) ⟨s, size⟩ = (.ok count, l₁) →
      Entries (f (Limited σ) none) l₁ es ⟨s', 0⟩ → es.length = count.toNat →
      ∃ m, (Tag.dict id m₀).deserializeValue f size (.dict id m₀, s) = (.ok (), (.dict id m, s')) ∧ LastWins m es) := by
  have hv : (Tag.dict id m₀).deserializeValue f size (.dict id m₀, s) =
      ((dictValue (f (Limited σ) none) size (m₀, s)).1, (.dict id (dictValue (f (Limited σ) none) size (m₀, s)).2.1,
        (dictValue (f (Limited σ) none) size (m₀, s)).2.2)) := by
    simp only [Tag.deserializeValue, zoom, deserializeDict_eq]
  rw [hv]
  constructor
  · intro t h
    rcases hd : dictValue (f (Limited σ) none) size (m₀, s) with ⟨r, m, s₂⟩
    rw [hd] at h
    simp only [Prod.mk.injEq] at h
    obtain ⟨rfl, rfl, rfl⟩ := h
    obtain ⟨count, l₁, es, l₂, h1, h2, h3, rfl, rfl⟩ := (dictValue_iff _ _ _ _ _ _).mp hd
    exact ⟨count, l₁, es, _, h1, h2, h3, rfl, collect_lastWins es⟩
  · intro count l₁ es h1 h2 h3
    refine ⟨collect [] es, ?_, collect_lastWins es⟩
    rw [(dictValue_iff _ _ m₀ _ _ _).mpr ⟨count, l₁, es, _, h1, h2, h3, rfl, rfl⟩]

/-- **C39** The same for a string dictionary. -/
theorem C39_strDict_last_wins [TagPayload P] [Env] (f : FactoryDeser P) (id : UInt64) (m₀ : List (String × String))
    (size : Nat) {σ : Type} [Reader σ] (s s' : σ) :
    (∀ t, (Tag.atom (.strDict id m₀)).deserializeValue f size (.atom (.strDict id m₀), s) = (.ok (), (t, s')) →
      ∃ count l₁ es m, (Ser.deserializeILInt : Act TagErr (Limited σ) UInt64) ⟨s, size⟩ = (.ok count, l₁) ∧
        Entries deserializeStringTag l₁ es ⟨s', 0⟩ ∧ es.length = count.toNat ∧ t = .atom (.strDict id m) ∧
        LastWins m es) ∧
    (∀ count l₁ es, (Ser.deserializeILInt : Act TagErr (Limited σ) UInt64) ⟨s, size⟩ = (.ok count, l₁) →
      Entries deserializeStringTag l₁ es ⟨s', 0⟩ → es.length = count.toNat →
      ∃ m, (Tag.atom (.strDict id m₀)).deserializeValue f size (.atom (.strDict id m₀), s)
        = (.ok (), (.atom (.strDict id m), s')) ∧ LastWins m es) := by
  have hv : (Tag.atom (.strDict id m₀)).deserializeValue f size (.atom (.strDict id m₀), s) =
      ((dictValue deserializeStringTag size (m₀, s)).1, (.atom (.strDict id (dictValue deserializeStringTag size (m₀, s)).2.1),
        (dictValue deserializeStringTag size (m₀, s)).2.2)) := by
    simp only [Tag.deserializeValue, Atom.deserializeValue, zoom, deserializeStrDict_eq]
  rw [hv]
  constructor
  · intro t h
    rcases hd : dictValue deserializeStringTag size (m₀, s) with ⟨r, m, s₂⟩
    rw [hd] at h
    simp only [Prod.mk.injEq] at h
    obtain ⟨rfl, rfl, rfl⟩ := h
    obtain ⟨count, l₁, es, l₂, h1, h2, h3, rfl, rfl⟩ := (dictValue_iff _ _ _ _ _ _).mp hd
    exact ⟨count, l₁, es, _, h1, h2, h3, rfl, collect_lastWins es⟩
  · intro count l₁ es h1 h2 h3
    refine ⟨collect [] es, ?_, collect_lastWins es⟩
    rw [(dictValue_iff _ _ m₀ _ _ _).mpr ⟨count, l₁, es, _, h1, h2, h3, rfl, rfl⟩]

/-- Two entries with the same key. -/
def twice : Script := ⟨[.ok 2, .ok 17, .ok 1, .ok 97, .ok 1, .ok 0, .ok 17, .ok 1, .ok 97, .ok 0]⟩

section
attribute [local instance] bigEnv
example : ∃ l₁, (Ser.deserializeILInt : Act TagErr (Limited Script) UInt64) ⟨twice, 10⟩ = (.ok 2, l₁) ∧
    Entries (Factory.deserialize (Engine.std true : Engine Empty) (Limited Script)) l₁
      [("a", .atom (.bool 1 false)), ("a", .atom (.null 0))] ⟨⟨[]⟩, 0⟩ := by
  refine ⟨_, rfl, .cons (s₁ := ⟨⟨[.ok 1, .ok 0, .ok 17, .ok 1, .ok 97, .ok 0]⟩, 6⟩) ?_
    (s₂ := ⟨⟨[.ok 17, .ok 1, .ok 97, .ok 0]⟩, 4⟩) ?_ (.cons (s₁ := ⟨⟨[.ok 0]⟩, 1⟩) ?_ (s₂ := ⟨⟨[]⟩, 0⟩) ?_ (.nil _))⟩
  · rfl
  · rw [deserialize_eq]; rfl
  · rfl
  · rw [deserialize_eq]; rfl
example : lastValue "a" [("a", 1), ("b", 2), ("a", 3)] = some 3 := by decide +kernel
end

/-! ### C40 -/

/-- **C40** Any factory that makes a string tag for id 17, any reader.  Whenever the value of a string dictionary is
read, a dictionary reads the same value, as the same map with each string in a standard string tag, and leaves the reader
in the same place. -/
theorem C40_dict_reads_strDict [TagPayload P] [Env] (e : Engine P) (x₀ : String)
    (he : e.createTag Id.string = .ok (some (.atom (.string Id.string x₀)))) (f : FactoryDeser P) (id id' : UInt64)
    (m₀ : List (String × String)) (m₁ : List (String × Tag P)) (size : Nat) {σ : Type} [Reader σ] (s s' : σ)
    (m : List (String × String))
    (h : (Tag.atom (.strDict id m₀)).deserializeValue f size (.atom (.strDict id m₀), s)
      = (.ok (), (.atom (.strDict id m), s'))) :
    (Tag.dict id' m₁).deserializeValue (Factory.methods e) size (.dict id' m₁, s)
      = (.ok (), (.dict id' (m.map fun x => (x.1, .atom (.string Id.string x.2))), s')) := by
  simp only [Tag.deserializeValue, Atom.deserializeValue, zoom, deserializeStrDict_eq, deserializeDict_eq] at h ⊢
  rcases hd : dictValue deserializeStringTag size (m₀, s) with ⟨r, m', s₂⟩
  rw [hd] at h
  simp only [Prod.mk.injEq, Tag.atom.injEq, Atom.strDict.injEq, true_and] at h
  obtain ⟨rfl, rfl, rfl⟩ := h
  obtain ⟨count, l₁, es, l₂, h1, h2, h3, rfl, rfl⟩ := (dictValue_iff _ _ _ _ _ _).mp hd
  have hstep : ∀ {l l' : Limited σ} {x : String}, deserializeStringTag l = (.ok x, l') →
      Factory.deserialize e (Limited σ) l = (.ok (.atom (.string Id.string x)), l') := by
    intro l l' x hx
    rcases hi : (Ser.deserializeILInt : Act TagErr (Limited σ) UInt64) l with ⟨r, l₁⟩
    have ho := C52_other_id l
    rw [hi] at ho
    cases r with
    | ok i =>
      by_cases h17 : i = Id.string
      · subst h17
        rw [C52_deserialize e x₀ he _ _ hi, hx]
        rfl
      · simp only at ho
        rw [ho h17] at hx
        simp at hx
    | _ => simp only at ho; rw [ho] at hx; simp at hx
  have hall : ∀ {l l' : Limited σ} {es : List (String × String)}, Entries deserializeStringTag l es l' →
      Entries (Factory.deserialize e (Limited σ)) l (es.map fun x => (x.1, .atom (.string Id.string x.2))) l' := by
    intro l l' es hx
    induction hx with
    | nil l => exact .nil _
    | cons hk hv _ ih => exact .cons hk (hstep hv) ih
  rw [show Factory.methods e (Limited σ) none = Factory.deserialize e (Limited σ) from rfl, (dictValue_iff _ _ m₁ _ _ _).mpr ⟨count, l₁, _, _, h1, hall h2, by simpa using h3, rfl,
    (collect_map (fun x => (.atom (.string Id.string x) : Tag P)) es []).symm⟩]

/-- **C40** A string dictionary reads the value bytes of any dictionary of standard string tags, from any well-behaved
reader, with the same keys and strings. -/
theorem C40_strDict_reads_dict [TagPayload P] [Env] (hr : MemoryOk) (es : List (String × String))
    (hn : (es.map (·.1)).Nodup) (id id' : UInt64) (m₀ : List (String × String)) (f : FactoryDeser P) {σ : Type} [Reader σ]
    (V : View σ) (s : σ) (rest : Bytes) (v : Bytes)
    (hv : v = encValue (.dict id' (es.map fun x => (x.1, .atom (.string Id.string x.2))) : Tag P))
    (hl : v.length ≤ maxValue) (hR : V.R s (v ++ rest)) :
    ∃ m s', (Tag.atom (.strDict id m₀)).deserializeValue f v.length (.atom (.strDict id m₀), s)
      = (.ok (), (.atom (.strDict id m), s')) ∧ V.R s' rest ∧ ∀ x, x ∈ m ↔ x ∈ es := by
  have he : v = encAtom (.strDict id es : Atom P) := by
    rw [hv]
    simp only [encValue, encAtom, encEntries_eq, List.map_map, List.length_map]
    rfl
  rw [he] at hR hl ⊢
  obtain ⟨s', h1, h2⟩ := atom_value_ok (P := P) hr (a₀ := .strDict id m₀) (a := .strDict id es) rfl rfl (by simp [Atom.kind]) hn hl f V
    s rest hR
  exact ⟨sortByKey es, s', h1, h2, fun x => mem_sortByKey⟩

example : encValue (.dict 30 ([("b", "x"), ("a", "")].map fun x => (x.1, .atom (.string Id.string x.2))) : Tag Empty)
    = [2, 17, 1, 97, 17, 0, 17, 1, 98, 17, 1, 120] := by decide +kernel
example : ((@Tag.deserializeValue Empty ByteArrayReader _ ⟨1000⟩ _ Factory.untouchable 12 (.atom (.strDict 31 [])) :
      Act TagErr (Tag Empty × ByteArrayReader) Unit)
      (.atom (.strDict 31 []), ByteArrayReader.new [2, 17, 1, 97, 17, 0, 17, 1, 98, 17, 1, 120])).1 = .ok () := by
  decide +kernel

end Verif.Props
