import Verif.Proof.Requests
import Verif.Spec.Calls
/-!
# Memory requested in all

A potential: every byte delivered earns `rate`, every request costs its size.  `Earns` follows it along every path of a
tree.
-/
namespace Verif
set_option linter.unusedSectionVars false

/-- Earnings per byte; what every tag leaves over; whether every request has to be paid in advance. -/
structure Tariff where
  rate : Int
  keep : Int
  strict : Prop
  keep_nonneg : 0 ≤ keep
  keep_le : keep ≤ rate
  rate_ge : 16 ≤ rate
  array : ∀ n : Nat, n ≤ maxTagSize → 16 * (n : Int) ≤ rate + n * keep
  pay : strict → 16 * (maxTagSize : Int) ≤ rate

namespace Prog
variable {τ τ' α β : Type} {F : Tariff}

/-- Starting with `g`, every successful path ends with at least `c`. -/
def Earns (F : Tariff) (c : Int) : Int → Prog τ α → Prop
  | g, done r _ => (∃ a, r = .ok a) → c ≤ g
  | g, read _ k => ∀ b, (k b).Earns F c (g + F.rate)
  | g, readAll _ n k => ∀ bs, (k bs).Earns F c (g + n * F.rate)
  | g, alloc _ u n k => (F.strict → (u * n : Nat) ≤ g) ∧ k.Earns F c (g - (u * n : Nat))

theorem Earns.shift {p : Prog τ α} {c g d : Int} (h : p.Earns F c g) (hd : F.strict → 0 ≤ d) {c' g' : Int} (hc : c' ≤ c + d)
    (hg : g + d = g') : p.Earns F c' g' := by
  induction p generalizing g g' with
  | done r t => intro ha; have := h ha; omega
  | read t k ih => exact fun b => ih b (h b) (by omega)
  | readAll t n k ih => exact fun b => ih b (h b) (by omega)
  | alloc t u n k ih => exact ⟨fun hs => by have := h.1 hs; have := hd hs; omega, ih h.2 (by omega)⟩

theorem Earns.bind {p : Prog τ α} {f : α → τ → Prog τ β} {c d g : Int} (h : p.Earns F c g)
    (hf : ∀ a t, (f a t).Earns F d c) : (p.bind f).Earns F d g := by
  induction p generalizing g with
  | done r t =>
    cases r with
    | ok a =>
      have h1 := h ⟨a, rfl⟩
      exact (hf a t).shift (d := g - c) (fun _ => by omega) (by omega) (by omega)
    | _ => rintro ⟨a, ha⟩; exact absurd ha (by simp)
  | read t k ih => exact fun b => ih b (h b)
  | readAll t n k ih => exact fun b => ih b (h b)
  | alloc t u n k ih => exact ⟨h.1, ih h.2⟩

omit F in
theorem bind_assoc {γ : Type} (p : Prog τ α) (f : α → τ → Prog τ β) (h : β → τ → Prog τ γ) :
    (p.bind f).bind h = p.bind fun a t => (f a t).bind h := by
  induction p with
  | done r t => cases r <;> rfl
  | read t k ih => simp only [Prog.bind, ih]
  | readAll t n k ih => simp only [Prog.bind, ih]
  | alloc t u n k ih => simp only [Prog.bind, ih]

theorem Earns.mapT {p : Prog τ α} {w : τ → τ'} {c g : Int} (h : p.Earns F c g) : (p.mapT w).Earns F c g := by
  induction p generalizing g with
  | done r t => exact h
  | read t k ih => exact fun b => ih b (h b)
  | readAll t n k ih => exact fun b => ih b (h b)
  | alloc t u n k ih => exact ⟨h.1, ih h.2⟩

theorem Earns.limit {p : Prog τ α} (m : Nat) {c g : Int} (h : p.Earns F c g) : (p.limit m).Earns F c g := by
  induction p generalizing m g with
  | done r t => exact h
  | read t k ih =>
    simp only [Prog.limit]
    split
    · rintro ⟨a, ha⟩; simp at ha
    · exact fun b => ih b _ (h b)
  | readAll t n k ih =>
    simp only [Prog.limit]
    split
    · rintro ⟨a, ha⟩; simp at ha
    · exact fun b => ih b _ (h b)
  | alloc t u n k ih => exact ⟨h.1, ih m h.2⟩

theorem Earns.toVal {p : Prog τ Unit} {c g : Int} (h : p.Earns F c g) : p.toVal.Earns F c g := by
  induction p generalizing g with
  | done r t =>
    rintro ⟨a, ha⟩
    cases r with
    | ok a => exact h ⟨_, rfl⟩
    | _ => simp [Res.map] at ha
  | read t k ih => exact fun b => ih b (h b)
  | readAll t n k ih => exact fun b => ih b (h b)
  | alloc t u n k ih => exact ⟨h.1, ih h.2⟩

end Prog

/-- From `g` to `c`, whatever the value being filled. -/
def Earns {τ α : Type} (F : Tariff) (g c : Int) (T : PS τ α) : Prop := ∀ t, (T t).Earns F c g

namespace Earns
variable {τ τ' α β : Type} {F : Tariff} {g c d : Int}

theorem mono {T : PS τ α} (h : Earns F g c T) {g' c' : Int} (hc : c' - c ≤ g' - g := by omega) (hg : F.strict → g ≤ g' := by intros; omega) :
    Earns F g' c' T := fun t => (h t).shift (d := g' - g) (fun hs => by have := hg hs; omega) (by omega) (by omega)

theorem weak {T : PS τ α} (h : Earns F g c T) {c' : Int} (hc : c' ≤ c) : Earns F g c' T := mono h (by omega) (fun _ => Int.le_refl _)

theorem bind {T : PS τ α} {K : α → PS τ β} (h : Earns F g c T) (hk : ∀ a, Earns F c d (K a)) : Earns F g d (T >>= K) :=
  fun t => Prog.Earns.bind (h t) fun a t => hk a t

theorem lift (r : Res TagErr α) (h : c ≤ g := by omega) : Earns F g c (PS.lift (τ := τ) r) := fun _ _ => h
theorem pure (a : α) (h : c ≤ g := by omega) : Earns F g c (Pure.pure a : PS τ α) := fun _ _ => h
theorem fail (e : TagErr) : Earns F g c (PS.fail e : PS τ α) := by rintro t ⟨a, ha⟩; simp at ha
theorem panic : Earns F g c (PS.panic : PS τ α) := by rintro t ⟨a, ha⟩; simp at ha
theorem diverge : Earns F g c (PS.diverge : PS τ α) := by rintro t ⟨a, ha⟩; simp at ha
theorem set (t : τ) (h : c ≤ g := by omega) : Earns F g c (PS.set t) := fun _ _ => h
theorem modify (f : τ → τ) (h : c ≤ g := by omega) : Earns F g c (PS.modify f) := fun _ _ => h
theorem guard (p : Prop) [Decidable p] (e : TagErr) (h : c ≤ g := by omega) : Earns F g c (PS.guardE p e : PS τ Unit) := by
  unfold PS.guardE
  split
  · exact lift _ h
  · exact fail _
theorem ite {p : Prop} [Decidable p] {T T' : PS τ α} (h : p → Earns F g c T) (h' : ¬ p → Earns F g c T') :
    Earns F g c (if p then T else T') := by
  split
  · exact h ‹_›
  · exact h' ‹_›
theorem read : Earns F g (g + F.rate) (PS.read : PS τ Byte) := fun _ _ _ => Int.le_refl _
theorem readAll (n : Nat) : Earns F g (g + n * F.rate) (PS.readAll n : PS τ Bytes) := fun _ _ _ => Int.le_refl _
theorem alloc (u n : Nat) (h : F.strict → ((u * n : Nat) : Int) ≤ g) : Earns F g (g - (u * n : Nat)) (PS.alloc u n : PS τ Unit) :=
  fun _ => ⟨h, fun _ => Int.le_refl _⟩
theorem onReader {T : PS Unit α} (h : Earns F g c T) : Earns F g c (PS.onReader T : PS τ α) := fun _ => (h ()).mapT
theorem zoom {T : PS τ α} (wrap : τ → τ') (t : τ) (h : Earns F g c T) : Earns F g c (PS.zoom wrap t T) := fun _ => (h t).mapT
theorem limited {T : PS τ α} (h : Earns F g c T) : Earns F g c (PS.limited T) := fun q => (h q.1).limit q.2
theorem withLimited {T : PS (τ × Nat) α} (n : Nat) (h : Earns F g c T) : Earns F g c (PS.withLimited n T) := fun t => (h (t, n)).mapT
theorem ensureEmpty (h : c ≤ g := by omega) : Earns F g c (PS.ensureEmpty : PS (τ × Nat) Unit) := by
  intro q
  unfold PS.ensureEmpty
  split
  · exact fun _ => h
  · rintro ⟨a, ha⟩; simp at ha

/-- A byte is worth more than a byte. -/
theorem byte_le (F : Tariff) (n : Nat) : 16 * (n : Int) ≤ n * F.rate := by
  rw [Int.mul_comm]
  exact Int.mul_le_mul_of_nonneg_left F.rate_ge (by omega)

theorem ilint : Earns F g (g + F.rate) PS.ilint := by
  unfold PS.ilint
  refine bind read fun h => ite (fun _ => pure _) fun _ => bind (c := g + F.rate) (weak (readAll _) ?_) fun tmp => lift _
  have := byte_le F (ILInt.decodedSize h - 1)
  omega

theorem ilint' (h : g + F.rate ≥ c := by omega) : Earns F g c PS.ilint := weak ilint h

theorem signedILInt : Earns F g (g + F.rate) PS.signedILInt := bind ilint fun _ => pure _

theorem of_readAll {T : Bytes → PS τ α} (n : Nat) (hg : ∀ b, Earns F g c (T b)) : Earns F g c (PS.readAll n >>= T) := by
  have := byte_le F n
  exact bind (weak (readAll n) (by omega)) hg

theorem i8 : Earns F g g PS.i8 := by
  have := F.rate_ge
  exact bind (c := g) (weak read (by omega)) fun _ => pure _
theorem u16 : Earns F g g PS.u16 := of_readAll 2 fun _ => pure _
theorem i16 : Earns F g g PS.i16 := of_readAll 2 fun _ => pure _
theorem u32 : Earns F g g PS.u32 := of_readAll 4 fun _ => pure _
theorem i32 : Earns F g g PS.i32 := of_readAll 4 fun _ => pure _
theorem u64 : Earns F g g PS.u64 := of_readAll 8 fun _ => pure _
theorem i64 : Earns F g g PS.i64 := of_readAll 8 fun _ => pure _

/-- A buffer is paid for by the bytes read into it; in advance by one byte's earnings. -/
theorem bytes {n : Nat} (hn : n ≤ maxTagSize) (hg : F.rate ≤ g) : Earns F g g (PS.bytes n) := by
  unfold PS.bytes
  have := byte_le F n
  refine bind (alloc 1 n fun hs => ?_) fun _ => weak (readAll n) (by omega)
  have := F.pay hs
  omega

theorem bytesIntoVec {n : Nat} (hn : n ≤ maxTagSize) (hg : F.rate ≤ g) : Earns F g g (PS.bytesIntoVec n) := by
  unfold PS.bytesIntoVec
  have := byte_le F n
  refine bind (alloc 1 n fun hs => ?_) fun _ => bind (modify _ (Int.le_refl _)) fun _ => bind (c := g) (onReader (weak (readAll n) (by omega))) fun _ => set _
  have := F.pay hs
  omega

theorem liftBind {r : Res TagErr α} {K : α → PS τ β} (h : ∀ a, r = .ok a → Earns F g c (K a)) : Earns F g c (PS.lift r >>= K) := by
  cases r with
  | ok a => exact h a rfl
  | err e => rintro t ⟨a, ha⟩; simp at ha
  | panic => rintro t ⟨a, ha⟩; simp at ha
  | diverge => rintro t ⟨a, ha⟩; simp at ha

theorem stringTag (hg : 0 ≤ g) : Earns F g (g + F.rate) PS.stringTag := by
  have := F.rate_ge
  unfold PS.stringTag
  refine bind ilint fun id => ite (fun _ => fail _) fun _ => bind ilint fun len => liftBind fun n hn => ?_
  refine bind (bytes (tagSizeToUsize_le hn) (by omega)) fun tmp => ?_
  cases fromUtf8 tmp with
  | none => exact fail _
  | some s => exact pure _

variable {P : Type}

theorem rprog {f : Option (Tag P) → PS Unit (Tag P)} (hf : ∀ o, Earns F 0 F.keep (f o)) (r : RProg P) (hg : 0 ≤ g) :
    Earns F g g (PS.rprog f r) := by
  have h1 := F.rate_ge
  have h2 := F.keep_nonneg
  induction r with
  | done r p => exact fun _ _ => Int.le_refl _
  | read k ih => exact bind (c := g) (onReader (weak read (by omega))) fun b => ih b
  | readAll n k ih =>
    have := byte_le F n
    exact bind (c := g) (onReader (weak (readAll n) (by omega))) fun b => ih b
  | deser k ih => exact bind (c := g) (onReader (mono (hf none) (g' := g) (c' := g))) fun b => ih b
  | into t k ih => exact bind (c := g) (onReader (mono (hf (some t)) (g' := g) (c' := g))) fun b => ih b

theorem pushILInts (n : Nat) : Earns F g (g + n * F.rate) (PS.pushILInts n) := by
  induction n generalizing g with
  | zero => exact pure _ (by omega)
  | succ n ih =>
    refine bind (onReader ilint) fun v => bind (modify _ (Int.le_refl _)) fun _ => weak ih ?_
    rw [Int.natCast_succ, Int.add_mul]; omega

theorem ilintArray {vs : Nat} (hv : vs ≤ maxTagSize) (hg : F.rate ≤ g) : Earns F g g (PS.ilintArray vs) := by
  unfold PS.ilintArray
  have h1 := F.rate_ge
  refine withLimited _ (bind (limited (onReader ilint)) fun count => ite (fun _ => fail _) fun hc => ?_)
  have h2 := byte_le F count.toNat
  refine bind (limited (set _ (Int.le_refl _))) fun _ => bind (limited (alloc _ _ fun hs => ?_)) fun _ =>
    bind (limited (pushILInts _)) fun _ => ensureEmpty
  have := F.pay hs
  omega

theorem insertStrEntries (hg : 0 ≤ g) (n : Nat) : Earns F g g (PS.insertStrEntries n) := by
  have h1 := F.rate_ge
  induction n with
  | zero => exact pure _
  | succ n ih =>
    exact bind (c := g) (onReader (weak (stringTag hg) (by omega))) fun k => bind (c := g) (onReader (weak (stringTag hg) (by omega))) fun v =>
      bind (modify _ (Int.le_refl _)) fun _ => ih

theorem strDict (vs : Nat) (hg : 0 ≤ g) : Earns F g g (PS.strDict vs) := by
  unfold PS.strDict
  have h1 := F.rate_ge
  exact withLimited _ (bind (c := g) (limited (onReader ilint')) fun count => bind (limited (set _ (Int.le_refl _))) fun _ =>
    bind (limited (insertStrEntries hg _)) fun _ => ensureEmpty)

theorem range (vs : Nat) : Earns F g g (PS.range vs) := by
  unfold PS.range
  have h1 := F.rate_ge
  exact withLimited _ (bind (c := g) (limited (onReader ilint')) fun start => bind (limited (modify _ (Int.le_refl _))) fun _ =>
    bind (limited (onReader u16)) fun count => bind (limited (modify _ (Int.le_refl _))) fun _ => ensureEmpty)

theorem fixed {T : PS Unit α} (h : Earns F g g T) (vs n : Nat) (f : α → τ) : Earns F g g (PS.fixed vs n T f) :=
  bind (guard _ _ (Int.le_refl _)) fun _ => bind (onReader h) fun _ => set _

theorem atomValue [TagPayload P] {f : Option (Tag P) → PS Unit (Tag P)} (hf : ∀ o, Earns F 0 F.keep (f o)) {vs : Nat}
    (hv : vs ≤ maxTagSize) (hg : F.rate ≤ g) (a : Atom P) : Earns F g g (PS.atomValue f vs a) := by
  have h1 := F.rate_ge
  have hr : ∀ {τ : Type}, Earns F g g (PS.read : PS τ Byte) := weak read (by omega)
  have hi : Earns F g g PS.ilint := weak ilint (by omega)
  cases a with
  | null id => exact guard _ _
  | bool id b =>
    exact bind (guard _ _ (Int.le_refl _)) fun _ => bind (onReader hr) fun v =>
      ite (fun _ => set _) fun _ => ite (fun _ => set _) fun _ => fail _
  | int8 id v => exact fixed i8 _ _ _
  | uint8 id v => exact fixed hr _ _ _
  | int16 id v => exact fixed i16 _ _ _
  | uint16 id v => exact fixed u16 _ _ _
  | int32 id v => exact fixed i32 _ _ _
  | uint32 id v => exact fixed u32 _ _ _
  | int64 id v => exact fixed i64 _ _ _
  | uint64 id v => exact fixed u64 _ _ _
  | bin32 id v => exact fixed u32 _ _ _
  | bin64 id v => exact fixed u64 _ _ _
  | bin128 id v =>
    have := byte_le F 16
    refine bind (guard _ _ (Int.le_refl _)) fun _ => bind (c := g) (onReader (weak (readAll 16) (by omega))) fun v => ?_
    by_cases hv : v.length = 16
    · simp only [hv, dite_true]; exact set _
    · simp only [hv, dite_false]; exact panic
  | ilint id v => exact bind (onReader hi) fun v => set _
  | signedILInt id v => exact bind (onReader (weak (signedILInt (g := g)) (c' := g) (by omega))) fun v => set _
  | raw id v => exact zoom _ _ (bytesIntoVec hv hg)
  | byteArray v => exact zoom _ _ (bytesIntoVec hv hg)
  | string id v =>
    refine bind (onReader (bytes hv hg)) fun tmp => ?_
    cases fromUtf8 tmp with
    | none => exact fail _
    | some s => exact set _
  | bigInt v => exact zoom _ _ (bytesIntoVec hv hg)
  | bigDec id s v =>
    exact bind (guard _ _ (Int.le_refl _)) fun _ => bind (onReader i32) fun v => bind (set _ (Int.le_refl _)) fun _ =>
      zoom _ _ (bytesIntoVec (by omega) hg)
  | ilintArray id v => exact zoom _ _ (ilintArray hv hg)
  | range id a b => exact zoom (fun p => Atom.range id p.1 p.2) (a, b) (range _)
  | version id a b c d =>
    exact bind (guard _ _ (Int.le_refl _)) fun _ =>
      bind (onReader i32) fun _ => bind (set _ (Int.le_refl _)) fun _ =>
      bind (onReader i32) fun _ => bind (set _ (Int.le_refl _)) fun _ =>
      bind (onReader i32) fun _ => bind (set _ (Int.le_refl _)) fun _ =>
      bind (onReader i32) fun _ => set _
  | oid id v => exact zoom _ _ (ilintArray hv hg)
  | strDict id es => exact zoom _ _ (strDict _ (by omega))
  | payload id p => exact zoom _ _ (rprog hf _ (by omega))

theorem pushWhile {f : PS Unit (Tag P)} (hf : Earns F 0 F.keep f) (hg : 0 ≤ g) (n : Nat) :
    Earns F g g (PS.pushWhileNotEmpty f n) := by
  have h2 := F.keep_nonneg
  induction n with
  | zero => exact diverge
  | succ n ih =>
    intro q
    unfold PS.pushWhileNotEmpty
    split
    · exact fun _ => Int.le_refl _
    · exact (bind (c := g) (limited (onReader (mono hf (g' := g) (c' := g)))) fun t =>
        bind (limited (modify _ (Int.le_refl _))) fun _ => ih) q

theorem pushTags {f : PS Unit (Tag P)} (hf : Earns F 0 F.keep f) (n : Nat) :
    Earns F 0 (n * F.keep) (PS.pushTags f n) := by
  have h2 := F.keep_nonneg
  induction n with
  | zero => exact pure _ (by omega)
  | succ n ih =>
    refine bind (onReader hf) fun v => bind (modify _ (Int.le_refl _)) fun _ => mono ih ?_
    rw [Int.natCast_succ, Int.add_mul]; omega

theorem insertEntries {f : PS Unit (Tag P)} (hf : Earns F 0 F.keep f) (hg : 0 ≤ g) (n : Nat) :
    Earns F g g (PS.insertEntries f n) := by
  have h1 := F.rate_ge
  have h2 := F.keep_nonneg
  induction n with
  | zero => exact pure _
  | succ n ih =>
    exact bind (c := g) (onReader (weak (stringTag hg) (by omega))) fun k => bind (c := g) (onReader (mono hf (g' := g) (c' := g))) fun v =>
      bind (modify _ (Int.le_refl _)) fun _ => ih

theorem tagValue [TagPayload P] {f : Option (Tag P) → PS Unit (Tag P)} (hf : ∀ o, Earns F 0 F.keep (f o)) {vs : Nat}
    (hv : vs ≤ maxTagSize) (hg : F.rate ≤ g) (t : Tag P) : Earns F g (g - F.rate + F.keep) (PS.tagValue f vs t) := by
  have h1 := F.rate_ge
  have h2 := F.keep_nonneg
  have h3 := F.keep_le
  cases t with
  | atom a => exact zoom _ _ (weak (atomValue hf hv hg a) (by omega))
  | seq id ts =>
    refine zoom _ _ ?_
    unfold PS.seq
    exact withLimited _ (bind (limited (set _ (Int.le_refl _))) fun _ => weak (pushWhile (hf none) (g := g) (by omega) _) (by omega))
  | array id ts =>
    refine zoom _ _ ?_
    unfold PS.array
    refine withLimited _ (bind (limited (onReader ilint)) fun count => ite (fun _ => fail _) fun hc => ?_)
    have h4 := F.array count.toNat (by omega)
    refine bind (limited (set _ (Int.le_refl _))) fun _ => bind (limited (alloc _ _ fun hs => ?_)) fun _ =>
      bind (limited ?_) fun _ => ensureEmpty (c := g - F.rate + F.keep) (Int.le_refl _)
    · have := F.pay hs
      omega
    · refine mono (pushTags (hf none) count.toNat) (by omega) fun hs => ?_
      have := F.pay hs
      omega
  | dict id es =>
    refine zoom _ _ ?_
    unfold PS.dict
    exact withLimited _ (bind (c := g) (limited (onReader ilint')) fun count => bind (limited (set _ (Int.le_refl _))) fun _ =>
      bind (limited (insertEntries (hf none) (by omega) _)) fun _ => ensureEmpty)

/-- The size that comes out of the header is within the limit. -/
theorem tagSizeBind (id : UInt64) {K : Nat → PS Unit α} (h : ∀ n, n ≤ maxTagSize → Earns F g c (K n)) :
    Earns F g c (PS.tagSize id >>= K) := by
  have h1 := F.rate_ge
  have h2 : ∀ size, Earns F g c (PS.lift (tagSizeToUsize size) >>= K) := fun _ =>
    liftBind fun n hn => h n (tagSizeToUsize_le hn)
  intro t
  show ((PS.tagSize id t).bind K).Earns F c g
  unfold PS.tagSize
  split
  · exact h2 _ t
  · exact (Prog.bind_assoc (PS.ilint t) _ K) ▸ (bind (c := g) ilint' h2 : Earns F g c _) t

theorem checkEmpty : Earns F g g (PS.checkEmpty (P := P)) := by
  intro q
  unfold PS.checkEmpty
  split
  · rintro ⟨a, ha⟩; simp at ha
  · exact fun _ => Int.le_refl _

theorem tagValueInto [TagPayload P] {f : Option (Tag P) → PS Unit (Tag P)} (hf : ∀ o, Earns F 0 F.keep (f o)) {n : Nat} (hn : n ≤ maxTagSize)
    (hg : F.rate ≤ g) : Earns F g (g - F.rate + F.keep) (PS.tagValueInto f n) := by
  unfold PS.tagValueInto
  exact withLimited n fun q => bind (limited (tagValue hf hn hg q.1)) (fun _ => checkEmpty) q

theorem deserializeFuel [TagPayload P] (e : Engine P) (n : Nat) (o : Option (Tag P)) :
    Earns F 0 F.keep (PS.deserializeFuel e n o) := by
  have h1 := F.rate_ge
  induction n generalizing o with
  | zero => exact diverge
  | succ n ih =>
    have hfill : ∀ (tag : Tag P) (size : Nat), size ≤ maxTagSize →
        Earns F F.rate F.keep (fun _ : Unit => (PS.tagValueInto (PS.deserializeFuel e n) size tag).toVal) := by
      intro tag size hs u
      have := tagValueInto ih hs (Int.le_refl F.rate) tag
      exact (this.toVal).shift (d := 0) (fun _ => Int.le_refl _) (by omega) (by omega)
    cases o with
    | none =>
      unfold PS.deserializeFuel
      refine bind (c := F.rate) ilint' fun id => tagSizeBind id fun size hs => liftBind fun tag htag => ?_
      cases tag with
      | none => exact fail _
      | some tag => exact hfill tag size hs
    | some tag =>
      unfold PS.deserializeFuel
      exact bind (c := F.rate) ilint' fun id => ite (fun _ => fail _) fun _ => tagSizeBind id fun size hs =>
        hfill tag size hs

end Earns

section Run
variable {τ α σ : Type} [Reader σ] {F : Tariff}

/-- On success the requests are paid by the bytes delivered. -/
theorem Prog.Earns.success [Env] {p : Prog τ α} {c g : Int} (h : p.Earns F c g) (w : Spec.Counted σ) (a : α)
    (hr : (p.run w).1 = .ok a) : (p.requested w.source : Int) + c ≤ ((p.run w).2.2.bytes - w.bytes) * F.rate + g := by
  induction p generalizing g w with
  | done r t =>
    have := h ⟨a, hr⟩
    simp only [Prog.requested, Prog.run]
    omega
  | read t k ih =>
    simp only [Prog.run, Prog.requested, Reader.read, Spec.Counted.count] at hr ⊢
    rcases hx : Reader.read w.source with ⟨r, s'⟩
    rw [hx] at hr
    cases r with
    | ok b =>
      have := ih b (h b) ⟨s', w.calls + 1, w.bytes + 1⟩ hr
      simp only [Int.natCast_add, Int.sub_mul, Int.add_mul] at this ⊢
      omega
    | _ => simp at hr
  | readAll t n k ih =>
    simp only [Prog.run, Prog.requested, Reader.readAll, Spec.Counted.count] at hr ⊢
    rcases hx : Reader.readAll n w.source with ⟨r, s'⟩
    rw [hx] at hr
    cases r with
    | ok b =>
      have hl := Reader.readAll_len _ _ _ _ hx
      have := ih b (h b) ⟨s', w.calls + 1, w.bytes + b.length⟩ hr
      simp only [Int.natCast_add, Int.sub_mul, Int.add_mul, hl] at this ⊢
      omega
    | _ => simp at hr
  | alloc t u n k ih =>
    simp only [Prog.run, Prog.requested] at hr ⊢
    split at hr
    · rename_i hm
      have := ih h.2 w hr
      simp only [hm, if_true, Int.natCast_add] at this ⊢
      omega
    · simp at hr

/-- The bytes delivered while the tree runs and no request of memory is refused. -/
def Prog.delivered : Prog τ α → σ → Nat
  | .done _ _, _ => 0
  | .read _ k, s =>
    match Reader.read s with
    | (.ok b, s') => 1 + (k b).delivered s'
    | _ => 0
  | .readAll _ n k, s =>
    match Reader.readAll n s with
    | (.ok bs, s') => n + (k bs).delivered s'
    | _ => 0
  | .alloc _ _ _ k, s => k.delivered s

/-- If every request is paid in advance they are paid whatever the outcome. -/
theorem Prog.Earns.always (hs : F.strict) {p : Prog τ α} {c g : Int} (hg : 0 ≤ g) (h : p.Earns F c g) (s : σ) :
    (p.requested s : Int) ≤ p.delivered s * F.rate + g := by
  have h1 := F.rate_ge
  induction p generalizing g s with
  | done r t => simp [Prog.requested, Prog.delivered, hg]
  | read t k ih =>
    simp only [Prog.delivered, Prog.requested]
    rcases hx : Reader.read s with ⟨r, s'⟩
    cases r with
    | ok b =>
      have := ih b (by omega) (h b) s'
      simp only [Int.natCast_add, Int.add_mul] at this ⊢
      omega
    | _ => simp [hg]
  | readAll t n k ih =>
    simp only [Prog.delivered, Prog.requested]
    rcases hx : Reader.readAll n s with ⟨r, s'⟩
    cases r with
    | ok b =>
      have h2 := Verif.Earns.byte_le F n
      have := ih b (by omega) (h b) s'
      simp only [Int.natCast_add, Int.add_mul] at this ⊢
      omega
    | _ => simp [hg]
  | alloc t u n k ih =>
    simp only [Prog.delivered, Prog.requested]
    have h3 := h.1 hs
    have := ih (by omega) h.2 s
    simp only [Int.natCast_add]
    omega

end Run

/-- Sixteen per byte, sixteen kept by every tag. -/
def Tariff.linear : Tariff where
  rate := 16
  keep := 16
  strict := False
  keep_nonneg := by decide
  keep_le := by decide
  rate_ge := by decide
  array n _ := by omega
  pay h := h.elim

/-- The largest request per byte. -/
def Tariff.advance : Tariff where
  rate := 16 * maxTagSize
  keep := 0
  strict := True
  keep_nonneg := by decide
  keep_le := by decide
  rate_ge := by decide
  array n h := by omega
  pay _ := Int.le_refl _

end Verif
