import Verif.Proof.Std
import Verif.Proof.Ser
import Verif.Proof.Order
/-!
# What is read is at least as long as what would be written
-/
namespace Verif
open Spec
set_option linter.unusedSectionVars false

/-- Whatever `p` returns has weight at most the number of bytes read, and satisfies `Q`. -/
def Shr {α : Type} (w : α → Nat) (Q : α → Prop) (p : Parser α) : Prop :=
  ∀ bs a rest, p bs = .ok a rest → w a + rest.length ≤ bs.length ∧ Q a

section
variable [Env] {α β : Type} {w : α → Nat} {v : β → Nat} {Q : α → Prop} {R : β → Prop}

theorem Shr.bind {p : Parser α} {k : α → Parser β} (h : Shr w Q p) (hk : ∀ a, Q a → Shr (fun b => v b - w a) R (k a)) :
    Shr v R (p >>= k) := by
  intro bs b rest hb
  obtain ⟨a, r, h1, h2⟩ := Parser.bind_eq_ok.mp hb
  have ha := h _ _ _ h1
  have hb := hk a ha.2 _ _ _ h2
  simp only at hb
  exact ⟨by omega, hb.2⟩

theorem Shr.pure {a : α} (hw : w a = 0) (hq : Q a) : Shr w Q (Pure.pure a : Parser α) := by
  intro bs b rest h
  simp only [Parser.pure_apply, PRes.ok.injEq] at h
  obtain ⟨rfl, rfl⟩ := h
  exact ⟨by omega, hq⟩

theorem Shr.fail (e : TagErr) : Shr w Q (Parser.fail e : Parser α) := by intro bs b rest h; simp at h
theorem Shr.panic : Shr w Q (Parser.panic : Parser α) := by intro bs b rest h; simp at h
theorem Shr.diverge : Shr w Q (Parser.diverge : Parser α) := by intro bs b rest h; simp at h
theorem Shr.lift {r : Res TagErr α} : Shr (fun _ => 0) (fun a => r = .ok a) (Parser.lift r) := by
  intro bs b rest h
  rw [lift_eq_ok] at h
  exact ⟨by simp [h.2], h.1⟩

theorem Shr.ite {c : Prop} [Decidable c] {p q : Parser α} (hp : c → Shr w Q p) (hq : ¬ c → Shr w Q q) :
    Shr w Q (if c then p else q) := by
  split
  · exact hp ‹_›
  · exact hq ‹_›

theorem Shr.mono {p : Parser α} {w' : α → Nat} {Q' : α → Prop} (h : Shr w Q p) (hw : ∀ a, Q a → w' a ≤ w a)
    (hq : ∀ a, Q a → Q' a) : Shr w' Q' p := by
  intro bs a rest hp
  have := h _ _ _ hp
  exact ⟨by have := hw a this.2; omega, hq a this.2⟩

theorem Shr.byte : Shr (fun _ => 1) (fun _ => True) Parser.byte := by
  intro bs b rest h
  have := byte_ok h
  subst this
  exact ⟨by simp; omega, trivial⟩

theorem Shr.take (n : Nat) : Shr (fun b => b.length) (fun b => b.length = n) (Parser.take n) := by
  intro bs b rest h
  unfold Parser.take at h
  split at h
  · simp only [PRes.ok.injEq] at h
    obtain ⟨rfl, rfl⟩ := h
    simp only [List.length_take, List.length_drop]
    omega
  · simp at h

omit [Env] in
theorem ilint_parsed {bs rest : Bytes} {v : UInt64} (h : Parser.ilint bs = .ok v rest) :
    ∃ used, bs = used ++ rest ∧ IsILInt used v.toNat := by
  unfold Parser.ilint at h
  obtain ⟨hd, r, h1, h2⟩ := Parser.bind_eq_ok.mp h
  have := byte_ok h1
  subst this
  by_cases hs : ILInt.decodedSize hd = 1
  · rw [if_pos hs] at h2
    simp only [Parser.pure_apply, PRes.ok.injEq] at h2
    obtain ⟨rfl, rfl⟩ := h2
    refine ⟨[hd], rfl, ?_, .inl ⟨hd, rfl, ?_, ?_⟩⟩
    · exact UInt64.toNat_lt _
    · rw [ILInt.decodedSize_eq] at hs
      have := hd.toNat_lt
      split at hs <;> omega
    · simp
  · rw [if_neg hs] at h2
    obtain ⟨body, r', h3, h4⟩ := Parser.bind_eq_ok.mp h2
    have hb : body.length = ILInt.decodedSize hd - 1 ∧ r = body ++ r' := by
      unfold Parser.take at h3
      split at h3
      · simp only [PRes.ok.injEq] at h3
        obtain ⟨rfl, rfl⟩ := h3
        simp only [List.length_take, List.take_append_drop, and_true]
        omega
      · simp at h3
    rw [ILInt.decodedSize_eq] at hs hb
    have hlt := hd.toNat_lt
    have h248 : ¬ hd.toNat < 248 := fun hc => hs (by rw [if_pos hc])
    rw [if_neg h248] at hb
    rw [lift_eq_ok, ILInt.decodeBody_eq _ (by omega) (by omega)] at h4
    obtain ⟨h5, rfl⟩ := h4
    split at h5
    · next hv =>
      simp only [Res.mapErr, Res.ok.injEq] at h5
      subst h5
      refine ⟨hd :: body, by rw [hb.2]; rfl, UInt64.toNat_lt _, .inr ⟨hd, body, rfl, by omega, by omega, by omega, ?_⟩⟩
      simp only [UInt64.toNat_ofNat']
      omega
    · simp [Res.mapErr] at h5

theorem Shr.ilint : Shr (fun v => (Spec.ilint v.toNat).length) (fun _ => True) Parser.ilint := by
  intro bs v rest h
  obtain ⟨u, rfl, hu⟩ := ilint_parsed h
  have := (ILInt.ilint_shortest hu).1
  exact ⟨by simp only [List.length_append]; omega, trivial⟩

theorem Shr.ensureEmpty (slack : Nat) : Shr (fun _ => 0) (fun _ => True) (Parser.ensureEmpty slack) := by
  intro bs a rest h
  unfold Parser.ensureEmpty at h
  split at h
  · simp only [PRes.ok.injEq] at h
    exact ⟨by simp [h.2], trivial⟩
  · simp at h

theorem Shr.limited {n : Nat} {q : Nat → Parser α} (h : ∀ s, Shr w Q (q s)) :
    Shr w (fun a => Q a ∧ w a ≤ n) (Parser.limited n q) := by
  intro bs a rest hb
  unfold Parser.limited at hb
  split at hb
  · next hn =>
    cases hq : q 0 (bs.take n) with
    | ok b r =>
      simp only [hq, PRes.ok.injEq] at hb
      obtain ⟨rfl, rfl⟩ := hb
      have := h _ _ _ _ hq
      simp only [List.length_take, List.length_append, List.length_drop] at this ⊢
      exact ⟨by omega, this.2, by omega⟩
    | _ => simp [hq] at hb
  · next hn =>
    have := h _ _ _ _ hb
    exact ⟨this.1, this.2, by omega⟩

end

section
variable [Env]

theorem Shr.bytes (n : Nat) : Shr (fun b => b.length) (fun b => b.length = n) (Parser.bytes n) :=
  Shr.ite (fun _ => Shr.take n) fun _ => Shr.panic

theorem Shr.utf8 (n : Nat) : Shr (fun s => (Spec.utf8 s).length) (fun s => (Spec.utf8 s).length = n) (Parser.utf8 n) := by
  refine Shr.bind (Shr.bytes n) fun tmp ht => ?_
  cases hf : fromUtf8 tmp with
  | none => exact Shr.fail _
  | some s =>
    have hs : Spec.utf8 s = tmp := by rw [← utf8_eq]; exact fromUtf8_eq_some.mp hf
    exact Shr.pure (by simp [hs]) (by simp [hs, ht])

theorem Shr.stringTag : Shr (fun s => (Spec.stringTag s).length) (fun _ => True) Parser.stringTag := by
  refine Shr.bind Shr.ilint fun id _ => Shr.ite (fun _ => Shr.fail _) fun hid => ?_
  have hid : id = 17 := Decidable.not_not.mp hid
  subst hid
  refine Shr.bind Shr.ilint fun len _ => Shr.bind Shr.lift fun n hn => ?_
  have hn := (tagSizeToUsize_ok hn).1
  refine (Shr.utf8 n).mono (fun s hs => ?_) fun _ _ => trivial
  simp only [Spec.stringTag, wrap_length]
  rw [if_neg (by decide), hs, hn]
  omega

theorem Shr.ilints (n : Nat) (acc : List UInt64) :
    Shr (fun b => (b.flatMap fun v => Spec.ilint v.toNat).length - (acc.flatMap fun v => Spec.ilint v.toNat).length)
      (fun b => b.length = acc.length + n) (Parser.ilints n acc) := by
  induction n generalizing acc with
  | zero => exact Shr.pure (by omega) rfl
  | succ n ih =>
    refine Shr.bind Shr.ilint fun v _ => (ih (acc ++ [v])).mono (fun b hb => ?_) (fun b hb => ?_)
    · simp only [List.flatMap_append, List.flatMap_cons, List.flatMap_nil, List.append_nil, List.length_append]
      omega
    · rw [hb]; simp; omega

theorem Shr.ilintArray (vs : Nat) : Shr (fun l => (encILInts l).length) (fun _ => True) (Parser.ilintArray vs) := by
  refine (Shr.limited (w := fun l => (encILInts l).length) (Q := fun _ => True) fun slack => ?_).mono
    (fun _ _ => Nat.le_refl _) (fun _ _ => trivial)
  refine Shr.bind Shr.ilint fun count _ => Shr.ite (fun _ => Shr.fail _) fun _ => Shr.ite (fun _ => ?_) fun _ => Shr.panic
  refine Shr.bind (Shr.ilints _ _) fun r hr => Shr.bind (Shr.ensureEmpty slack) fun _ _ => Shr.pure ?_ trivial
  simp only [List.length_nil, Nat.zero_add] at hr
  simp only [encILInts, List.length_append, hr, List.flatMap_nil, List.length_nil]
  omega

/-- The bytes of entries in the order given. -/
def entriesLen {α : Type} (g : α → Bytes) (es : List (String × α)) : Nat :=
  (es.flatMap fun e => Spec.stringTag e.1 ++ g e.2).length

theorem entriesLen_insert {α : Type} (g : α → Bytes) (k : String) (v : α) (es : List (String × α)) :
    entriesLen g (HMap.insert k v es) ≤ entriesLen g es + (Spec.stringTag k).length + (g v).length ∧
      (HMap.insert k v es).length ≤ es.length + 1 := by
  induction es with
  | nil => simp [HMap.insert, entriesLen]
  | cons e es ih =>
    obtain ⟨k', v'⟩ := e
    simp only [HMap.insert]
    unfold entriesLen at ih ⊢
    split
    · rename_i h; subst h
      simp only [List.flatMap_cons, List.length_append, List.length_cons]
      omega
    · simp only [List.flatMap_cons, List.length_append, List.length_cons]
      omega

theorem Shr.strEntries (n : Nat) (acc : List (String × String)) (ha : (acc.map (·.1)).Nodup) :
    Shr (fun b => entriesLen Spec.stringTag b - entriesLen Spec.stringTag acc)
      (fun b => b.length ≤ acc.length + n ∧ (b.map (·.1)).Nodup) (Parser.strEntries n acc) := by
  induction n generalizing acc with
  | zero => exact Shr.pure (by omega) ⟨Nat.le_refl _, ha⟩
  | succ n ih =>
    refine Shr.bind Shr.stringTag fun k _ => Shr.bind Shr.stringTag fun v _ => ?_
    have hi := entriesLen_insert Spec.stringTag k v acc
    refine (ih (HMap.insert k v acc) (HMap.nodup_insert ha k v)).mono (fun b hb => ?_) (fun b hb => ?_)
    · omega
    · exact ⟨by omega, hb.2⟩

theorem ilint_length_mono {a b : Nat} (h : a ≤ b) (hb : b < 2 ^ 64) : (Spec.ilint a).length ≤ (Spec.ilint b).length := by
  rw [ILInt.length_ilint, ILInt.length_ilint]
  have := ilintExtra_mono h hb
  omega

theorem Shr.strDict (vs : Nat) : Shr (fun es => (Spec.ilint es.length).length + entriesLen Spec.stringTag es)
    (fun es => (es.map (·.1)).Nodup) (Parser.strDict vs) := by
  refine (Shr.limited (w := fun es => (Spec.ilint es.length).length + entriesLen Spec.stringTag es)
    (Q := fun es => (es.map (·.1)).Nodup) fun slack => ?_).mono (fun _ _ => Nat.le_refl _) (fun _ h => h.1)
  refine Shr.bind Shr.ilint fun count _ => Shr.bind (Shr.strEntries _ _ (by simp)) fun r hr =>
    Shr.bind (Shr.ensureEmpty slack) fun _ _ => Shr.pure ?_ hr.2
  have := ilint_length_mono (a := r.length) (b := count.toNat) (by simpa using hr.1) count.toNat_lt
  simp only [entriesLen, List.flatMap_nil, List.length_nil]
  omega

theorem Shr.range (vs : Nat) : Shr (fun r => (Spec.ilint r.1.toNat).length + 2) (fun _ => True) (Parser.range vs) := by
  refine (Shr.limited (w := fun r => (Spec.ilint r.1.toNat).length + 2) (Q := fun _ => True) fun slack => ?_).mono
    (fun _ _ => Nat.le_refl _) (fun _ _ => trivial)
  refine Shr.bind Shr.ilint fun start _ => Shr.bind (Shr.take 2) fun c hc => Shr.bind (Shr.ensureEmpty slack) fun _ _ =>
    Shr.pure ?_ trivial
  simp only
  omega

variable {P : Type} [TagPayload P]

/-- Same type and id, and no key twice. -/
def AtomLike (a a' : Atom P) : Prop := a'.kind = a.kind ∧ a'.id = a.id ∧ MapOk (.atom a')

theorem Shr.fixed (vs n : Nat) (g : Bytes → Atom P) {a : Atom P} (hw : ∀ t, (encAtom (g t)).length = n)
    (hq : ∀ t, AtomLike a (g t)) :
    Shr (fun a' => (encAtom a').length) (AtomLike a) (Parser.fixed vs n g) :=
  Shr.ite (fun _ => Shr.bind (Shr.take n) fun t ht => Shr.pure (by simp only [hw, ht]; omega) (hq t)) fun _ => Shr.fail _

theorem Shr.i32 : Shr (fun _ => 4) (fun _ => True) Parser.i32 :=
  Shr.bind (Shr.take 4) fun t ht => Shr.pure (by simp only [ht]) trivial

theorem Shr.atomValue (f : Option (Tag P) → Parser (Tag P)) (vs : Nat) (a : Atom P) (hk : a.kind ≠ .payload) :
    Shr (fun a' => (encAtom a').length) (AtomLike a) (Parser.atomValue f vs a) := by
  cases a with
  | payload id p => exact absurd rfl hk
  | null id => exact Shr.ite (fun _ => Shr.pure rfl ⟨rfl, rfl, trivial⟩) fun _ => Shr.fail _
  | bool id b =>
    refine Shr.ite (fun _ => Shr.bind Shr.byte fun v _ => ?_) fun _ => Shr.fail _
    exact Shr.ite (fun _ => Shr.pure rfl ⟨rfl, rfl, trivial⟩) fun _ =>
      Shr.ite (fun _ => Shr.pure rfl ⟨rfl, rfl, trivial⟩) fun _ => Shr.fail _
  | int8 id v => 
    exact Shr.ite (fun _ => Shr.bind Shr.byte fun v _ => Shr.pure (by simp [encAtom]) ⟨rfl, rfl, trivial⟩) fun _ => Shr.fail _
  | uint8 id v =>
    exact Shr.ite (fun _ => Shr.bind Shr.byte fun v _ => Shr.pure (by simp [encAtom]) ⟨rfl, rfl, trivial⟩) fun _ => Shr.fail _
  | int16 id v => exact Shr.fixed _ _ _ (fun t => by simp [encAtom]) fun _ => ⟨rfl, rfl, trivial⟩
  | uint16 id v => exact Shr.fixed _ _ _ (fun t => by simp [encAtom]) fun _ => ⟨rfl, rfl, trivial⟩
  | int32 id v => exact Shr.fixed _ _ _ (fun t => by simp [encAtom]) fun _ => ⟨rfl, rfl, trivial⟩
  | uint32 id v => exact Shr.fixed _ _ _ (fun t => by simp [encAtom]) fun _ => ⟨rfl, rfl, trivial⟩
  | int64 id v => exact Shr.fixed _ _ _ (fun t => by simp [encAtom]) fun _ => ⟨rfl, rfl, trivial⟩
  | uint64 id v => exact Shr.fixed _ _ _ (fun t => by simp [encAtom]) fun _ => ⟨rfl, rfl, trivial⟩
  | bin32 id v => exact Shr.fixed _ _ _ (fun t => by simp [encAtom]) fun _ => ⟨rfl, rfl, trivial⟩
  | bin64 id v => exact Shr.fixed _ _ _ (fun t => by simp [encAtom]) fun _ => ⟨rfl, rfl, trivial⟩
  | bin128 id v =>
    refine Shr.ite (fun _ => Shr.bind (Shr.take 16) fun t ht => ?_) fun _ => Shr.fail _
    rw [dif_pos ht]
    exact Shr.pure (by simp [encAtom]) ⟨rfl, rfl, trivial⟩
  | ilint id v => exact Shr.bind Shr.ilint fun v _ => Shr.pure (by simp [encAtom]) ⟨rfl, rfl, trivial⟩
  | signedILInt id v =>
    refine Shr.bind Shr.ilint fun v _ => Shr.pure ?_ ⟨rfl, rfl, trivial⟩
    have := ILInt.encodeSign_eq (ILInt.decodeSign v)
    rw [ILInt.encodeSign_decodeSign] at this
    simp only [encAtom, Spec.signedILInt, ← this]
    omega
  | raw id v => exact Shr.bind (Shr.bytes vs) fun v _ => Shr.pure (by simp [encAtom]) ⟨rfl, rfl, trivial⟩
  | byteArray v => exact Shr.bind (Shr.bytes vs) fun v _ => Shr.pure (by simp [encAtom]) ⟨rfl, rfl, trivial⟩
  | bigInt v => exact Shr.bind (Shr.bytes vs) fun v _ => Shr.pure (by simp [encAtom]) ⟨rfl, rfl, trivial⟩
  | string id v => exact Shr.bind (Shr.utf8 vs) fun v _ => Shr.pure (by simp [encAtom]) ⟨rfl, rfl, trivial⟩
  | bigDec id sc v =>
    refine Shr.ite (fun _ => Shr.bind Shr.i32 fun sc _ => Shr.bind (Shr.bytes _) fun v _ => ?_) fun _ => Shr.fail _
    exact Shr.pure (by simp [encAtom]) ⟨rfl, rfl, trivial⟩
  | ilintArray id v => exact Shr.bind (Shr.ilintArray vs) fun v _ => Shr.pure (by simp [encAtom]) ⟨rfl, rfl, trivial⟩
  | oid id v => exact Shr.bind (Shr.ilintArray vs) fun v _ => Shr.pure (by simp [encAtom]) ⟨rfl, rfl, trivial⟩
  | range id a b => exact Shr.bind (Shr.range vs) fun v _ => Shr.pure (by simp [encAtom]) ⟨rfl, rfl, trivial⟩
  | version id a b c d =>
    refine Shr.ite (fun _ => Shr.bind Shr.i32 fun a _ => Shr.bind Shr.i32 fun b _ => Shr.bind Shr.i32 fun c _ =>
      Shr.bind Shr.i32 fun d _ => ?_) fun _ => Shr.fail _
    exact Shr.pure (by simp [encAtom]) ⟨rfl, rfl, trivial⟩
  | strDict id es =>
    refine Shr.bind (Shr.strDict vs) fun v hv => Shr.pure ?_ ⟨rfl, rfl, hv⟩
    simp only [encAtom, List.length_append, encSorted_length, List.flatMap_map]
    unfold entriesLen
    omega

variable {f : Parser (Tag P)} {F : Option (Tag P) → Parser (Tag P)} {Good : Tag P → Prop}

theorem Shr.tags (hf : Shr (fun t => (enc t).length) Good f) (n : Nat) (acc : List (Tag P)) (ha : ∀ t ∈ acc, Good t) :
    Shr (fun b => (b.flatMap enc).length - (acc.flatMap enc).length) (fun b => b.length = acc.length + n ∧ ∀ t ∈ b, Good t)
      (Parser.tags f n acc) := by
  induction n generalizing acc with
  | zero => exact Shr.pure (by omega) ⟨rfl, ha⟩
  | succ n ih =>
    refine Shr.bind hf fun t ht => (ih (acc ++ [t]) (by
      intro u hu; rcases List.mem_append.mp hu with h | h; · exact ha u h
      · simp only [List.mem_singleton] at h; rw [h]; exact ht)).mono (fun b hb => ?_) (fun b hb => ?_)
    · simp only [List.flatMap_append, List.flatMap_cons, List.flatMap_nil, List.append_nil, List.length_append]
      omega
    · exact ⟨by rw [hb.1]; simp; omega, hb.2⟩

theorem Shr.tagsWhile (hf : Shr (fun t => (enc t).length) Good f) (slack n : Nat) (acc : List (Tag P))
    (ha : ∀ t ∈ acc, Good t) :
    Shr (fun b => (b.flatMap enc).length - (acc.flatMap enc).length) (fun b => ∀ t ∈ b, Good t)
      (Parser.tagsWhile f slack n acc) := by
  induction n generalizing acc with
  | zero => exact Shr.diverge
  | succ n ih =>
    intro bs b rest h
    simp only [Parser.tagsWhile] at h
    split at h
    · simp only [PRes.ok.injEq] at h
      obtain ⟨rfl, rfl⟩ := h
      exact ⟨by simp, ha⟩
    · have : Shr (fun b => (b.flatMap enc).length - (acc.flatMap enc).length) (fun b => ∀ t ∈ b, Good t)
          (f >>= fun t => Parser.tagsWhile f slack n (acc ++ [t])) := by
        refine Shr.bind hf fun t ht => (ih (acc ++ [t]) (by
          intro u hu; rcases List.mem_append.mp hu with h | h; · exact ha u h
          · simp only [List.mem_singleton] at h; rw [h]; exact ht)).mono (fun b hb => ?_) (fun b hb => hb)
        simp only [List.flatMap_append, List.flatMap_cons, List.flatMap_nil, List.append_nil, List.length_append]
        omega
      exact this _ _ _ h

theorem Shr.entries (hf : Shr (fun t => (enc t).length) Good f) (n : Nat) (acc : List (String × Tag P))
    (ha : (acc.map (·.1)).Nodup) (hg : ∀ e ∈ acc, Good e.2) :
    Shr (fun b => entriesLen enc b - entriesLen enc acc)
      (fun b => b.length ≤ acc.length + n ∧ (b.map (·.1)).Nodup ∧ ∀ e ∈ b, Good e.2) (Parser.entries f n acc) := by
  induction n generalizing acc with
  | zero => exact Shr.pure (by omega) ⟨Nat.le_refl _, ha, hg⟩
  | succ n ih =>
    refine Shr.bind Shr.stringTag fun k _ => Shr.bind hf fun v hv => ?_
    have hi := entriesLen_insert enc k v acc
    have hgi : ∀ e ∈ HMap.insert k v acc, Good e.2 := by
      intro e he
      have h1 := HMap.get_eq_some_of_mem (HMap.nodup_insert ha k v) (k := e.1) (v := e.2) he
      rw [HMap.get_insert] at h1
      split at h1
      · simp only [Option.some.injEq] at h1; rw [← h1]; exact hv
      · exact hg _ (HMap.mem_of_get h1)
    refine (ih (HMap.insert k v acc) (HMap.nodup_insert ha k v) hgi).mono (fun b hb => ?_) (fun b hb => ?_)
    · omega
    · exact ⟨by omega, hb.2⟩

/-- Same type and id as `t₀`; no key twice; everything inside is good. -/
def TagLike (Good : Tag P → Prop) (t₀ t : Tag P) : Prop :=
  t.kind = t₀.kind ∧ t.id = t₀.id ∧ MapOk t ∧ ∀ u, Within u t → u = t ∨ ∃ v, Good v ∧ Within u v

theorem Shr.tagValue (hf : Shr (fun t => (enc t).length) Good (F none)) (vs : Nat) (t₀ : Tag P) (hk : t₀.kind ≠ .payload) :
    Shr (fun t => (encValue t).length) (TagLike Good t₀) (Parser.tagValue F vs t₀) := by
  cases t₀ with
  | atom a =>
    refine Shr.bind (Shr.atomValue F vs a hk) fun a' ha => Shr.pure (by simp [encValue]) ⟨ha.1, ha.2.1, ha.2.2, ?_⟩
    intro u hu; cases hu; exact .inl rfl
  | seq id ts₀ =>
    have h : Shr (fun ts : List (Tag P) => (ts.flatMap enc).length) (fun ts => ∀ t ∈ ts, Good t) (Parser.seq (F none) vs) :=
      (Shr.limited fun slack => (Shr.tagsWhile hf slack (vs + 1) [] (by simp)).mono (w' := fun ts => (ts.flatMap enc).length)
        (fun b _ => by simp) (fun b hb => hb)).mono (fun _ _ => Nat.le_refl _) (fun _ h => h.1)
    refine Shr.bind h fun ts hts => Shr.pure ?_ ⟨rfl, rfl, trivial, ?_⟩
    · simp only [encValue, encTags_eq]; omega
    · intro u hu
      cases hu with
      | refl => exact .inl rfl
      | seq hm hw => exact .inr ⟨_, hts _ hm, hw⟩
  | array id ts₀ =>
    have h : Shr (fun ts : List (Tag P) => (Spec.ilint ts.length).length + (ts.flatMap enc).length)
        (fun ts => ∀ t ∈ ts, Good t) (Parser.array (F none) vs) := by
      refine (Shr.limited (w := fun ts : List (Tag P) => (Spec.ilint ts.length).length + (ts.flatMap enc).length)
        (Q := fun ts => ∀ t ∈ ts, Good t) fun slack => ?_).mono (fun _ _ => Nat.le_refl _) (fun _ h => h.1)
      refine Shr.bind Shr.ilint fun count _ => Shr.ite (fun _ => Shr.fail _) fun _ => Shr.ite (fun _ => ?_) fun _ =>
        Shr.panic
      refine Shr.bind (Shr.tags hf _ [] (by simp)) fun r hr => Shr.bind (Shr.ensureEmpty slack) fun _ _ =>
        Shr.pure ?_ hr.2
      have := hr.1
      simp only [List.length_nil, Nat.zero_add] at this
      simp only [this, List.flatMap_nil, List.length_nil]
      omega
    refine Shr.bind h fun ts hts => Shr.pure ?_ ⟨rfl, rfl, trivial, ?_⟩
    · simp only [encValue, encTags_eq, List.length_append]; omega
    · intro u hu
      cases hu with
      | refl => exact .inl rfl
      | array hm hw => exact .inr ⟨_, hts _ hm, hw⟩
  | dict id es₀ =>
    have h : Shr (fun es : List (String × Tag P) => (Spec.ilint es.length).length + entriesLen enc es)
        (fun es => (es.map (·.1)).Nodup ∧ ∀ e ∈ es, Good e.2) (Parser.dict (F none) vs) := by
      refine (Shr.limited (w := fun es : List (String × Tag P) => (Spec.ilint es.length).length + entriesLen enc es)
        (Q := fun es => (es.map (·.1)).Nodup ∧ ∀ e ∈ es, Good e.2) fun slack => ?_).mono (fun _ _ => Nat.le_refl _)
        (fun _ h => h.1)
      refine Shr.bind Shr.ilint fun count _ => Shr.bind (Shr.entries hf _ [] (by simp) (by simp)) fun r hr =>
        Shr.bind (Shr.ensureEmpty slack) fun _ _ => Shr.pure ?_ hr.2
      have := ilint_length_mono (a := r.length) (b := count.toNat) (by simpa using hr.1) count.toNat_lt
      simp only [entriesLen, List.flatMap_nil, List.length_nil]
      omega
    refine Shr.bind h fun es hes => Shr.pure ?_ ⟨rfl, rfl, hes.1, ?_⟩
    · simp only [encValue, encEntries_eq, List.length_append, encSorted_length, List.flatMap_map]
      unfold entriesLen
      omega
    · intro u hu
      cases hu with
      | refl => exact .inl rfl
      | dict hm hw => exact .inr ⟨_, hes.2 _ hm, hw⟩

theorem Shr.tagValueInto (hf : Shr (fun t => (enc t).length) Good (F none)) (size : Nat) (t₀ : Tag P) (hk : t₀.kind ≠ .payload) :
    Shr (fun t => (encValue t).length) (fun t => TagLike Good t₀ t ∧ (encValue t).length ≤ size)
      (Parser.tagValueInto F size t₀) := by
  refine Shr.limited fun slack => Shr.bind (Shr.tagValue hf size t₀ hk) fun t ht => ?_
  intro bs a rest h
  unfold Parser.checkEmpty at h
  split at h
  · simp at h
  · simp only [PRes.ok.injEq] at h
    obtain ⟨rfl, rfl⟩ := h
    exact ⟨by simp, ht⟩

/-- A tag as the standard engine makes them. -/
def Stdish (strict : Bool) (t : Tag P) : Prop :=
  ∀ u, Within u t → StdTag strict u ∧ (encValue u).length ≤ maxValue ∧ MapOk u

theorem std_created {strict : Bool} {id : UInt64} {t₀ : Tag P}
    (h : (Engine.std strict : Engine P).createTag id = .ok (some t₀)) : StdTag strict t₀ ∧ t₀.id = id ∧ t₀.kind ≠ .payload := by
  cases hk : stdKind id with
  | some k =>
    have hs := stdKind_some.mp hk
    obtain ⟨t₁, h1, h2, h3⟩ := std_create (P := P) (strict := strict) hs
    rw [h] at h1
    simp only [Res.ok.injEq, Option.some.injEq] at h1
    subst h1
    refine ⟨.inl (by rw [h2, h3]; exact hs), h3, ?_⟩
    rw [h2]
    rintro rfl
    simp [standardId] at hs
  | none =>
    rw [std_unknown (stdKind_none.mp hk)] at h
    split at h
    · next hc =>
      simp only [Res.ok.injEq, Option.some.injEq] at h
      subst h
      exact ⟨.inr ⟨hc.1, rfl, hc.2, stdKind_none.mp hk⟩, rfl, by simp [Tag.kind, Atom.kind]⟩
    · simp at h

theorem Shr.tag (strict : Bool) (k : Nat) :
    Shr (fun t => (enc t).length) (Stdish strict) (Parser.tag (Engine.std strict : Engine P) k none) := by
  induction k with
  | zero => exact Shr.diverge
  | succ k ih =>
    intro bs t rest h
    unfold Parser.tag at h
    obtain ⟨id, r₁, h1, h⟩ := Parser.bind_eq_ok.mp h
    obtain ⟨size, r₂, h2, h⟩ := Parser.bind_eq_ok.mp h
    obtain ⟨o, r₃, h3, h⟩ := Parser.bind_eq_ok.mp h
    rw [lift_eq_ok] at h3
    obtain ⟨h3, rfl⟩ := h3
    cases o with
    | none => simp at h
    | some t₀ =>
      obtain ⟨hs, hid, hk⟩ := std_created h3
      obtain ⟨hl, ⟨hk', hid', hm, hin⟩, hv⟩ := Shr.tagValueInto ih size t₀ hk _ _ _ h
      have hmax := tagSize_ok h2
      have hl1 := (Shr.ilint _ _ _ h1).1
      simp only at hl hl1
      have hti : t.id = id := by rw [hid', hid]
      constructor
      · simp only [enc, wrap_length, hti]
        rcases Bool.eq_false_or_eq_true (isImplicitTag id) with hi | hi
        · rw [tagSize_implicit hi, lift_eq_ok] at h2
          rw [if_pos (isImplicitTag_iff.mp hi)]
          obtain ⟨-, rfl⟩ := h2
          omega
        · rw [tagSize_explicit hi] at h2
          obtain ⟨n, r, h4, h5⟩ := Parser.bind_eq_ok.mp h2
          rw [lift_eq_ok] at h5
          obtain ⟨h5, rfl⟩ := h5
          have h6 := (tagSizeToUsize_ok h5).1
          have h7 := (Shr.ilint _ _ _ h4).1
          simp only at h7
          have h8 := ilint_length_mono (a := (encValue t).length) (b := n.toNat) (by omega) n.toNat_lt
          split <;> omega
      · intro u hu
        rcases hin u hu with rfl | ⟨v, hv, hw⟩
        · refine ⟨?_, by rw [maxValue_eq]; omega, hm⟩
          unfold StdTag at hs ⊢
          rw [hk', hid']
          exact hs
        · exact hv u hw

end
end Verif
