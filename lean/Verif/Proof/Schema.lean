import Verif.Spec.Schema
import Verif.Proof.PayloadSkip
import Verif.Proof.Grammar
import Verif.Proof.Scan
import Verif.Proof.Shuffle
import Verif.Proof.Change
import Verif.Proof.SimTag
import Verif.Props.Fields
/-!
# Payloads made of fields: the calls they make, and what they read
-/
namespace Verif
open Spec
set_option linter.unusedSectionVars false

/-! ### The programs make the calls of the library -/
section
variable {P σ α β : Type} [Reader σ]

theorem onReader_bind (x : Act TagErr σ α) (g : α → Act TagErr (P × σ) β) (p : P) (s : σ) :
    (onReader x >>= g) (p, s) =
      match x s with
      | (.ok a, s') => g a (p, s')
      | (.err e, s') => (.err e, (p, s'))
      | (.panic, s') => (.panic, (p, s'))
      | (.diverge, s') => (.diverge, (p, s')) := by
  have h : (onReader x : Act TagErr (P × σ) α) (p, s) = ((x s).1, (p, (x s).2)) := rfl
  rcases hx : x s with ⟨r, s'⟩
  rw [hx] at h
  cases r with
  | ok a => exact Act.bind_ok h
  | err e => exact Act.bind_err h
  | panic => exact Act.bind_panic h
  | diverge => rw [Act.bind_apply, h]

/-- The program with its continuation does what the action does, then what the continuation does. -/
def Runs (f : FactoryDeser P) (p₀ : P) (x : Act TagErr σ α) (c : (α → RProg P) → RProg P) : Prop :=
  ∀ k s, (c k).run f (p₀, s) = (onReader x >>= fun a => (k a).run f) (p₀, s)

namespace Runs
variable {f : FactoryDeser P} {p₀ : P}

theorem pure (a : α) : Runs f p₀ (σ := σ) (Pure.pure a) fun k => k a := fun _ _ => rfl

theorem bind {x : Act TagErr σ α} {c : (α → RProg P) → RProg P} {g : α → Act TagErr σ β}
    {d : α → (β → RProg P) → RProg P} (h : Runs f p₀ x c) (h' : ∀ a, Runs f p₀ (g a) (d a)) :
    Runs f p₀ (x >>= g) fun k => c fun a => d a k := by
  intro k s
  rw [h, onReader_bind, onReader_bind, Act.bind_apply]
  rcases x s with ⟨r, s'⟩
  cases r with
  | ok a => show ((d a k).run f (p₀, s')) = _; rw [h' a, onReader_bind]
  | err e => rfl
  | panic => rfl
  | diverge => rfl

theorem read : Runs f p₀ (σ := σ) (tagIo Reader.read) .read := fun _ _ => rfl
theorem readAll (n : Nat) : Runs f p₀ (σ := σ) (tagIo (Reader.readAll n)) (.readAll n) := fun _ _ => rfl

theorem given (r : Res TagErr α) : Runs f p₀ (σ := σ) (Act.lift r) fun k => Schema.given p₀ k r := by
  intro k s
  cases r <;> rfl

theorem fail (e : TagErr) : Runs f p₀ (σ := σ) (Act.fail e : Act TagErr σ α) fun _ => .done (.err e) p₀ := fun _ _ => rfl

theorem ite {c : Prop} [Decidable c] {x y : Act TagErr σ α} {u v : (α → RProg P) → RProg P} (h : c → Runs f p₀ x u)
    (h' : ¬ c → Runs f p₀ y v) : Runs f p₀ (if c then x else y) fun k => if c then u k else v k := by
  by_cases hc : c
  · simp only [if_pos hc]; exact h hc
  · simp only [if_neg hc]; exact h' hc

theorem ilint : Runs f p₀ (σ := σ) Ser.deserializeILInt (Schema.ilintCode p₀) := by
  rw [deserializeILInt_eq]
  refine bind read fun h => ite (fun _ => pure _) fun _ => bind (readAll _) fun tmp => ?_
  rw [decodeBody_mapErr]
  exact given _

theorem text (e : TagErr) (tmp : Bytes) : Runs f p₀ (σ := σ)
    (match fromUtf8 tmp with | some s => Pure.pure s | none => Act.fail e) fun k => Schema.textCode p₀ e k tmp := by
  unfold Schema.textCode
  cases fromUtf8 tmp with
  | some s => exact pure s
  | none => exact fail e

variable [Env]

theorem alloc {n : Nat} (hr : MemoryOk) (h : n ≤ maxValue) : (Data.alloc 1 n : Act TagErr σ Unit) = Pure.pure () := by
  unfold Data.alloc
  unfold MemoryOk at hr
  rw [if_pos (by omega)]

theorem bytes {n : Nat} (hr : MemoryOk) (h : n ≤ maxValue) : Runs f p₀ (σ := σ) (Ser.deserializeBytes n) (.readAll n) := by
  unfold Ser.deserializeBytes
  rw [alloc hr h]
  exact readAll n

theorem ioBind {γ δ : Type} (x : Act IoErr σ γ) (g : γ → Act IoErr σ δ) :
    tagIo (x >>= g) = (tagIo x >>= fun v => tagIo (g v)) := by
  unfold tagIo
  rw [Act.mapErr_bind]

theorem ioPure {γ : Type} (v : γ) : (tagIo (Pure.pure v) : Act TagErr σ γ) = Pure.pure v := rfl

theorem assoc {x : Act TagErr σ α} {γ δ : Type} {g : α → Act TagErr σ γ} {h : γ → Act TagErr σ δ}
    {c : (δ → RProg P) → RProg P} (hx : Runs f p₀ (x >>= fun a => g a >>= h) c) : Runs f p₀ ((x >>= g) >>= h) c := by
  have : ((x >>= g) >>= h) = (x >>= fun a => g a >>= h) := by
    funext s
    rw [Act.bind_apply, Act.bind_apply, Act.bind_apply]
    rcases x s with ⟨r, s'⟩
    cases r <;> rfl
  rw [this]
  exact hx

theorem nop {x : Act TagErr σ α} {c : (α → RProg P) → RProg P} (h : Runs f p₀ x c) :
    Runs f p₀ (Pure.pure () >>= fun _ => x) c := h

theorem all {γ : Type} (n : Nat) (g : Bytes → γ) (mk : γ → Field) :
    Runs f p₀ (σ := σ) (tagIo ((Reader.readAll n >>= fun t => Pure.pure (g t)) >>= fun v => Pure.pure (mk v)))
      fun k => .readAll n fun t => k (mk (g t)) := by
  simp only [ioBind, ioPure]
  exact assoc (bind (readAll n) fun t => pure _)

theorem field {sh : Shape} (hr : MemoryOk) (h : BoundedSchema (.field sh)) :
    Runs f p₀ (σ := σ) sh.deserialize fun k => Schema.fieldCode p₀ k sh := by
  unfold Shape.deserialize
  cases sh with
  | u8 =>
    show Runs f p₀ (tagIo (Reader.read >>= fun v => Pure.pure (Field.u8 v))) _
    rw [ioBind]
    exact bind read fun b => pure _
  | i8 =>
    show Runs f p₀ (tagIo ((Reader.read >>= fun v => Pure.pure v.toInt8) >>= fun v => Pure.pure (Field.i8 v))) _
    simp only [ioBind, ioPure]
    exact assoc (bind read fun b => pure _)
  | u16 => exact all 2 _ Field.u16
  | i16 => exact all 2 _ Field.i16
  | u32 => exact all 4 _ Field.u32
  | i32 => exact all 4 _ Field.i32
  | u64 => exact all 8 _ Field.u64
  | i64 => exact all 8 _ Field.i64
  | f32 => exact all 4 _ Field.f32
  | f64 => exact all 8 _ Field.f64
  | ilint =>
    show Runs f p₀ (tagIo (Data.readILInt >>= fun v => Pure.pure (Field.ilint v))) _
    rw [ioBind]
    exact bind ilint fun b => pure _
  | signedILInt =>
    show Runs f p₀ (tagIo (Data.readSignedILInt >>= fun v => Pure.pure (Field.signedILInt v))) _
    rw [Props.readSigned_eq]
    simp only [ioBind, ioPure]
    exact assoc (bind ilint fun b => pure _)
  | str n =>
    show Runs f p₀ (tagIo (Data.readString n >>= fun v => Pure.pure (Field.str v))) _
    unfold Data.readString
    simp only [ioBind, ioPure]
    refine assoc ?_
    have ha : (tagIo (Data.alloc 1 n) : Act TagErr σ Unit) = Pure.pure () := by
      unfold Data.alloc
      unfold MemoryOk at hr
      have : n ≤ maxValue := h
      rw [if_pos (by omega)]
      rfl
    rw [ha]
    refine nop (assoc (bind (readAll n) fun tmp => ?_))
    unfold Schema.textCode
    cases fromUtf8 tmp with
    | some s => exact pure _
    | none => exact fail _
  | bytes n =>
    show Runs f p₀ (σ := σ) (tagIo (Data.alloc 1 n >>= fun _ => Reader.readAll n >>= fun v => Pure.pure (Field.bytes v))) _
    simp only [ioBind, ioPure]
    have ha : (tagIo (Data.alloc 1 n) : Act TagErr σ Unit) = Pure.pure () := by
      unfold Data.alloc
      unfold MemoryOk at hr
      have : n ≤ maxValue := h
      rw [if_pos (by omega)]
      rfl
    rw [ha]
    exact nop (bind (readAll n) fun tmp => pure _)

theorem loop {x : Act TagErr σ α} {c : (α → RProg P) → RProg P} (h : Runs f p₀ x c) (n : Nat) :
    Runs f p₀ (Schema.repeated x n) (Schema.loopCode c n) := by
  induction n with
  | zero => exact pure _
  | succ n ih => exact bind h fun a => bind ih fun as => pure _

/-- The program of a struct does what its code does. -/
theorem code (hr : MemoryOk) : ∀ (s : Schema), BoundedSchema s → Runs f p₀ (σ := σ) s.read (s.code p₀)
  | .field sh, h => field hr h
  | .text, _ => by
    refine bind ilint fun id => ite (fun _ => fail _) fun _ => bind ilint fun len => ?_
    cases hn : tagSizeToUsize len with
    | ok n =>
      have : n ≤ maxValue := (Acc.tagSizeToUsize_iff.mp hn).2
      exact bind (bytes hr this) fun tmp => text _ tmp
    | err e => exact fail e
    | panic => intro k s; rfl
    | diverge => intro k s; rfl
  | .blob, _ => by
    refine bind ilint fun len => ?_
    cases hn : tagSizeToUsize len with
    | ok n =>
      have : n ≤ maxValue := (Acc.tagSizeToUsize_iff.mp hn).2
      exact bytes hr this
    | err e => exact fail e
    | panic => intro k s; rfl
    | diverge => intro k s; rfl
  | .many s, h => bind ilint fun n => loop (code hr s h) _
  | .both a b, h => bind (code hr a h.1) fun x => bind (code hr b h.2) fun y => pure _
  | .opt s, h => by
    refine bind read fun b => ite (fun _ => pure _) fun _ => ite (fun _ => bind (code hr s h) fun v => pure _) fun _ => fail _
  | .enum ok c, h => bind read fun b => ite (fun hb => bind (code hr (c b) (h b hb)) fun v => pure _) fun _ => fail _

end Runs
end

/-! ### What they read -/
section
variable {σ α β : Type} [Reader σ]

/-- The action reads exactly the forms `L`. -/
def Reads (V : View σ) (x : Act TagErr σ α) (L : α → Bytes → Prop) : Prop :=
  (∀ s a enc rest, V.R s (enc ++ rest) → L a enc → ∃ s', x s = (.ok a, s') ∧ V.R s' rest) ∧
  ∀ s bs a s', V.R s bs → x s = (.ok a, s') → ∃ enc rest, bs = enc ++ rest ∧ L a enc ∧ V.R s' rest

namespace Reads
variable {V : View σ}

theorem congr {x : Act TagErr σ α} {L L' : α → Bytes → Prop} (h : Reads V x L) (hl : ∀ a x, L a x ↔ L' a x) : Reads V x L' := by
  have : L = L' := by funext a x; exact propext (hl a x)
  exact this ▸ h

theorem ofSim {x : Act TagErr σ α} {p : Parser α} {L : α → Bytes → Prop} (h : Sim V x p) (ha : Acc p L) : Reads V x L := by
  constructor
  · intro s a enc rest hR hL
    have h1 := h s _ hR
    rw [(ha _ a rest).mpr ⟨enc, rfl, hL⟩] at h1
    exact h1
  · intro s bs a s' hR hx
    have h1 := h s bs hR
    rw [hx] at h1
    cases hp : p bs with
    | ok b rest =>
      rw [hp] at h1
      obtain ⟨s1, h2, h3⟩ := h1
      cases h2
      obtain ⟨enc, h4, h5⟩ := (ha _ _ _).mp hp
      exact ⟨enc, rest, h4, h5, h3⟩
    | short => rw [hp] at h1; obtain ⟨e, s1, h2, -⟩ := h1; cases h2
    | fail e => rw [hp] at h1; obtain ⟨s1, h2⟩ := h1; cases h2
    | panic => rw [hp] at h1; obtain ⟨s1, h2⟩ := h1; cases h2
    | diverge => rw [hp] at h1; obtain ⟨s1, h2⟩ := h1; cases h2

theorem pure (a : α) : Reads V (Pure.pure a) fun b enc => b = a ∧ enc = [] := by
  constructor
  · rintro s b enc rest hR ⟨rfl, rfl⟩
    exact ⟨s, rfl, hR⟩
  · rintro s bs b s' hR h
    cases h
    exact ⟨[], bs, rfl, ⟨rfl, rfl⟩, hR⟩

theorem bind {x : Act TagErr σ α} {g : α → Act TagErr σ β} {L : α → Bytes → Prop} {K : α → β → Bytes → Prop}
    (h : Reads V x L) (hg : ∀ a, Reads V (g a) (K a)) :
    Reads V (x >>= g) fun b enc => ∃ a u v, enc = u ++ v ∧ L a u ∧ K a b v := by
  constructor
  · rintro s b enc rest hR ⟨a, u, v, rfl, h1, h2⟩
    rw [List.append_assoc] at hR
    obtain ⟨s1, h3, h4⟩ := h.1 _ _ _ _ hR h1
    obtain ⟨s2, h5, h6⟩ := (hg a).1 _ _ _ _ h4 h2
    exact ⟨s2, by rw [Act.bind_ok h3, h5], h6⟩
  · intro s bs b s' hR hx
    obtain ⟨a, s1, h1, h2⟩ := RawTagScanner.bind_ok_inv hx
    obtain ⟨u, r, rfl, h3, h4⟩ := h.2 _ _ _ _ hR h1
    obtain ⟨v, rest, rfl, h5, h6⟩ := (hg a).2 _ _ _ _ h4 h2
    exact ⟨u ++ v, rest, by rw [List.append_assoc], ⟨a, u, v, rfl, h3, h5⟩, h6⟩

theorem fail (e : TagErr) : Reads V (Act.fail e : Act TagErr σ α) fun _ _ => False :=
  ⟨fun _ _ _ _ _ h => h.elim, fun _ _ _ _ _ h => by cases h⟩

theorem ite {c : Prop} [Decidable c] {x y : Act TagErr σ α} {L K : α → Bytes → Prop} (h : c → Reads V x L)
    (h' : ¬ c → Reads V y K) : Reads V (if c then x else y) fun a e => c ∧ L a e ∨ ¬ c ∧ K a e := by
  by_cases hc : c
  · simp only [hc, if_true, true_and, not_true_eq_false, false_and, or_false]; exact h hc
  · simp only [hc, if_false, false_and, not_false_eq_true, true_and, false_or]; exact h' hc

theorem repeated {x : Act TagErr σ α} {L : α → Bytes → Prop} (h : Reads V x L) (n : Nat) :
    Reads V (Schema.repeated x n) fun as enc => as.length = n ∧ Listed L as enc := by
  induction n with
  | zero =>
    refine (pure []).congr fun as enc => ?_
    rw [List.length_eq_zero_iff]
    constructor
    · rintro ⟨rfl, rfl⟩; exact ⟨rfl, rfl⟩
    · rintro ⟨rfl, h⟩; exact ⟨rfl, h⟩
  | succ n ih =>
    refine (bind h fun a => bind ih fun as => pure (a :: as)).congr fun as enc => ?_
    constructor
    · rintro ⟨a, u, v, rfl, h1, as', u', v', rfl, ⟨h2, h3⟩, rfl, rfl⟩
      exact ⟨by simp [h2], u, u' ++ [], rfl, h1, by simpa using h3⟩
    · rintro ⟨h1, h2⟩
      cases as with
      | nil => simp at h1
      | cons a as =>
        obtain ⟨u, v, rfl, h3, h4⟩ := h2
        exact ⟨a, u, v, rfl, h3, as, v, [], by simp, ⟨by simpa using h1, h4⟩, rfl, rfl⟩

variable [Env]

theorem field (sh : Shape) (hr : MemoryOk) (h : BoundedSchema (.field sh)) :
    Reads V sh.deserialize fun f enc => shapeOf f = sh ∧ FieldEnc f enc := by
  have hf : ShapeFits sh := by
    unfold MemoryOk at hr
    cases sh with
    | str n => have : n ≤ maxValue := h; show n ≤ Env.allocMax; omega
    | bytes n => have : n ≤ maxValue := h; show n ≤ Env.allocMax; omega
    | _ => trivial
  constructor
  · rintro s f enc rest hR ⟨h1, h2⟩
    obtain ⟨s', h3, h4⟩ := (Props.readsField sh).ok V hf h1 h2 hR
    exact ⟨s', Props.deserialize_ok.mpr h3, h4⟩
  · intro s bs f s' hR hx
    obtain ⟨h1, enc, rest, h2, h3, h4⟩ := (Props.readsField sh).back V hf hR (Props.deserialize_ok.mp hx)
    exact ⟨enc, rest, h3, ⟨h1, h2⟩, h4⟩

theorem ilint : Reads V Ser.deserializeILInt fun v x => IsILInt x v.toNat := ofSim Sim.ilint Acc.ilint

/-- The code of a struct reads the forms of the struct. -/
theorem read (hr : MemoryOk) : ∀ (s : Schema), BoundedSchema s → Reads V s.read (StructForm s)
  | .field sh, h => field sh hr h
  | .text, _ => ofSim Sim.stringTag (Acc.stringTag hr)
  | .blob, _ => by
    refine (ofSim (p := Parser.ilint >>= fun len => Parser.lift (tagSizeToUsize len) >>= fun n => Parser.bytes n)
      (Sim.bind Sim.ilint fun len => Sim.bind (Sim.lift _) fun n => Sim.bytes n)
      (Acc.bind Acc.ilint fun len => Acc.liftBind fun n hn =>
        Acc.bytes hr (Acc.tagSizeToUsize_iff.mp hn).2)).congr fun v enc => ?_
    constructor
    · rintro ⟨len, u, w, rfl, h1, n, hn, rfl, h2⟩
      obtain ⟨h3, h4⟩ := Acc.tagSizeToUsize_iff.mp hn
      subst h2
      exact ⟨h4, u, h3 ▸ h1, rfl⟩
    · rintro ⟨h1, l, h2, rfl⟩
      refine ⟨UInt64.ofNat v.length, l, v, rfl, ?_, v.length, tagSizeToUsize_eq h1, rfl, rfl⟩
      rw [UInt64.toNat_ofNat_of_lt' h2.1]
      exact h2
  | .many s, h => by
    refine (bind ilint fun n => repeated (read hr s h) n.toNat).congr fun vs enc => ?_
    constructor
    · rintro ⟨n, u, v, rfl, h1, h2, h3⟩
      exact ⟨u, v, rfl, h2 ▸ h1, h3⟩
    · rintro ⟨u, v, rfl, h1, h3⟩
      refine ⟨UInt64.ofNat vs.length, u, v, rfl, ?_⟩
      have : (UInt64.ofNat vs.length).toNat = vs.length := UInt64.toNat_ofNat_of_lt' h1.1
      rw [this]
      exact ⟨h1, rfl, h3⟩
  | .both a b, h => by
    refine (bind (read hr a h.1) fun x => bind (read hr b h.2) fun y => pure (x, y)).congr fun vs enc => ?_
    constructor
    · rintro ⟨x, u, v, rfl, h1, y, u', v', rfl, h2, rfl, rfl⟩
      exact ⟨u, u' ++ [], rfl, h1, by simpa using h2⟩
    · rintro ⟨u, v, rfl, h1, h2⟩
      exact ⟨vs.1, u, v, rfl, h1, vs.2, v, [], by simp, h2, rfl, rfl⟩
  | .opt s, h => by
    refine (bind (ofSim Sim.byte Acc.byte) fun b => ite (fun _ => pure none) fun _ =>
      ite (fun _ => bind (read hr s h) fun v => pure (some v)) fun _ => fail _).congr fun vs enc => ?_
    constructor
    · rintro ⟨b, u, v, rfl, h1, ⟨rfl, rfl, rfl⟩ | ⟨-, ⟨rfl, x, u', v', rfl, h2, rfl, rfl⟩ | ⟨-, h⟩⟩⟩
      · subst h1; rfl
      · subst h1; exact ⟨u' ++ [], rfl, by simpa using h2⟩
      · exact h.elim
    · intro h1
      cases vs with
      | none => 
        have h1 : enc = [0] := h1
        subst h1
        exact ⟨0, [0], [], rfl, rfl, .inl ⟨rfl, rfl, rfl⟩⟩
      | some x =>
        obtain ⟨u, rfl, h2⟩ := h1
        exact ⟨1, [1], u, rfl, rfl, .inr ⟨by decide, .inl ⟨rfl, x, u, [], by simp, h2, rfl, rfl⟩⟩⟩
  | .enum ok c, h => by
    refine (bind (ofSim Sim.byte Acc.byte) fun b => ite
      (fun hb => bind (read hr (c b) (h b hb)) fun v => pure (α := (b : Byte) × (c b).Val) ⟨b, v⟩) fun _ => fail _).congr fun vs enc => ?_
    constructor
    · rintro ⟨b, u, v, rfl, h1, ⟨hb, x, u', v', rfl, h2, rfl, rfl⟩ | ⟨-, h⟩⟩
      · subst h1; exact ⟨hb, u' ++ [], rfl, by simpa using h2⟩
      · exact h.elim
    · intro h1
      obtain ⟨b, x⟩ := vs
      obtain ⟨hb, u, rfl, h2⟩ := h1
      exact ⟨b, [b], u, rfl, rfl, .inl ⟨hb, x, u, [], by simp, h2, rfl, rfl⟩⟩

end Reads
end

/-! ### The forms and the bytes that are written -/

theorem fieldBytes_snug {f : Field} {x : Bytes} (h : FieldEnc f x) : Snug True x (fieldBytes f) := by
  cases f with
  | ilint v => exact Snug.ilint h
  | signedILInt v => exact Snug.ilint h
  | _ => exact h ▸ Snug.refl _

theorem structForm_snug : ∀ (s : Schema) (v : s.Val) (x : Bytes), StructForm s v x → Snug True x (structBytes s v)
  | .field _, _, _, h => fieldBytes_snug h.2
  | .text, _, _, h => Snug.string h
  | .blob, _, _, ⟨_, _, h, e⟩ => e ▸ Snug.append (Snug.ilint h) (Snug.refl _)
  | .many s, vs, _, ⟨_, x, e, h, h'⟩ => e ▸ Snug.append (Snug.ilint h)
      (Snug.listed vs x (fun v _ x hx => structForm_snug s v x hx) h')
  | .both a b, (x, y), _, ⟨_, _, e, h, h'⟩ => e ▸ Snug.append (structForm_snug a x _ h) (structForm_snug b y _ h')
  | .opt _, none, _, h => (show _ = _ from h) ▸ Snug.refl _
  | .opt s, some v, _, ⟨u, e, h⟩ => e ▸ Snug.append (x := [1]) (e := [1]) (Snug.refl _) (structForm_snug s v u h)
  | .enum _ c, ⟨b, v⟩, _, ⟨_, u, e, h⟩ => e ▸ Snug.append (x := [b]) (e := [b]) (Snug.refl _) (structForm_snug (c b) v u h)

theorem listed_mem {α : Type} {L : α → Bytes → Prop} : ∀ {as : List α} {x : Bytes}, Listed L as x →
    ∀ a ∈ as, ∃ y, L a y ∧ y.length ≤ x.length
  | [], _, _, a, ha => by simp at ha
  | b :: bs, _, ⟨y, z, e, h1, h2⟩, a, ha => by
    subst e
    rcases List.mem_cons.mp ha with rfl | ha
    · exact ⟨y, h1, by simp⟩
    · obtain ⟨w, h3, h4⟩ := listed_mem h2 a ha
      exact ⟨w, h3, by simp; omega⟩

theorem structForm_typed : ∀ (s : Schema) (v : s.Val) (x : Bytes), StructForm s v x → HasType s v
  | .field _, _, _, h => h.1
  | .text, _, _, ⟨_, _, _, _, h, _⟩ => h.1
  | .blob, _, _, ⟨_, _, h, _⟩ => h.1
  | .many s, _, _, ⟨_, _, _, h, h'⟩ => ⟨h.1, fun v hv => by
      obtain ⟨y, hy, -⟩ := listed_mem h' v hv
      exact structForm_typed s v y hy⟩
  | .both a b, (x, y), _, ⟨_, _, _, h, h'⟩ => ⟨structForm_typed a x _ h, structForm_typed b y _ h'⟩
  | .opt _, none, _, _ => trivial
  | .opt s, some v, _, ⟨u, _, h⟩ => structForm_typed s v u h
  | .enum _ c, ⟨b, v⟩, _, ⟨hb, u, _, h⟩ => ⟨hb, structForm_typed (c b) v u h⟩

theorem listed_flatMap {α : Type} {L : α → Bytes → Prop} {f : α → Bytes} : ∀ (as : List α),
    (∀ a ∈ as, L a (f a)) → Listed L as (as.flatMap f)
  | [], _ => rfl
  | a :: as, h => ⟨f a, as.flatMap f, by rw [List.flatMap_cons], h a (by simp),
      listed_flatMap as fun b hb => h b (by simp [hb])⟩

theorem item_le_flatMap {α : Type} {f : α → Bytes} {a : α} {as : List α} (h : a ∈ as) :
    (f a).length ≤ (as.flatMap f).length := by
  obtain ⟨l, r, rfl⟩ := List.append_of_mem h
  simp only [List.flatMap_append, List.flatMap_cons, List.length_append]
  omega

theorem structBytes_form : ∀ (s : Schema) (v : s.Val), HasType s v → (structBytes s v).length ≤ maxValue →
    StructForm s v (structBytes s v)
  | .field _, f, h, _ => ⟨h, Props.fieldBytes_enc f⟩
  | .text, v, _, hl => by
    refine stringForm_tag ?_
    change (Spec.stringTag v).length ≤ maxValue at hl
    rw [Look.stringTag_eq] at hl
    simp only [List.length_append] at hl
    omega
  | .blob, v, h, hl => by
    change (Spec.ilint v.length ++ v).length ≤ maxValue at hl
    rw [List.length_append] at hl
    exact ⟨by omega, _, ILInt.isILInt_ilint h, rfl⟩
  | .many s, vs, ⟨h, h'⟩, hl => by
    change (Spec.ilint vs.length ++ vs.flatMap (structBytes s)).length ≤ maxValue at hl
    rw [List.length_append] at hl
    refine ⟨_, _, rfl, ILInt.isILInt_ilint h, listed_flatMap vs fun v hv => structBytes_form s v (h' v hv) ?_⟩
    have := item_le_flatMap (f := structBytes s) hv
    omega
  | .both a b, (x, y), ⟨h, h'⟩, hl => by
    change (structBytes a x ++ structBytes b y).length ≤ maxValue at hl
    rw [List.length_append] at hl
    exact ⟨_, _, rfl, structBytes_form a x h (by omega), structBytes_form b y h' (by omega)⟩
  | .opt _, none, _, _ => rfl
  | .opt s, some v, h, hl => by
    change (1 :: structBytes s v).length ≤ maxValue at hl
    rw [List.length_cons] at hl
    exact ⟨_, rfl, structBytes_form s v h (by omega)⟩
  | .enum _ c, ⟨b, v⟩, ⟨hb, h⟩, hl => by
    change (b :: structBytes (c b) v).length ≤ maxValue at hl
    rw [List.length_cons] at hl
    exact ⟨hb, _, rfl, structBytes_form (c b) v h (by omega)⟩

/-! ### The calls of the writer -/

theorem opsBytes_append (a b : List WOp) : opsBytes (a ++ b) = opsBytes a ++ opsBytes b := by
  unfold opsBytes; rw [List.flatMap_append]

theorem ilintOps_bytes (v : UInt64) : opsBytes (Schema.ilintOps v) = Spec.ilint v.toNat := by
  rw [← ILInt.bytes_eq]
  unfold Schema.ilintOps ILInt.bytes
  split <;> simp [opsBytes, opBytes]

theorem fieldOps_bytes (f : Field) : opsBytes (Schema.fieldOps f) = fieldBytes f := by
  cases f with
  | ilint v => exact ilintOps_bytes v
  | signedILInt v =>
    show opsBytes (Schema.ilintOps _) = Spec.ilint _
    rw [ilintOps_bytes, ILInt.encodeSign_eq]
  | u8 v => simp [Schema.fieldOps, opsBytes, opBytes, fieldBytes, be]
  | i8 v => simp [Schema.fieldOps, opsBytes, opBytes, fieldBytes, be, ← twos_int8]
  | u16 v => simp [Schema.fieldOps, opsBytes, opBytes, fieldBytes, toBE_eq_be]
  | i16 v => simp [Schema.fieldOps, opsBytes, opBytes, fieldBytes, toBE_eq_be, twos_int16]
  | u32 v => simp [Schema.fieldOps, opsBytes, opBytes, fieldBytes, toBE_eq_be]
  | i32 v => simp [Schema.fieldOps, opsBytes, opBytes, fieldBytes, toBE_eq_be, twos_int32]
  | u64 v => simp [Schema.fieldOps, opsBytes, opBytes, fieldBytes, toBE_eq_be]
  | i64 v => simp [Schema.fieldOps, opsBytes, opBytes, fieldBytes, toBE_eq_be, twos_int64]
  | f32 v => simp [Schema.fieldOps, opsBytes, opBytes, fieldBytes, toBE_eq_be]
  | f64 v => simp [Schema.fieldOps, opsBytes, opBytes, fieldBytes, toBE_eq_be]
  | str v => simp [Schema.fieldOps, opsBytes, opBytes, fieldBytes, utf8_eq]
  | bytes v => simp [Schema.fieldOps, opsBytes, opBytes, fieldBytes]

theorem opsBytes_flatMap {α : Type} {f : α → List WOp} {g : α → Bytes} : ∀ (as : List α),
    (∀ a ∈ as, opsBytes (f a) = g a) → opsBytes (as.flatMap f) = as.flatMap g
  | [], _ => rfl
  | a :: as, h => by
    rw [List.flatMap_cons, List.flatMap_cons, opsBytes_append, h a (by simp),
      opsBytes_flatMap as fun b hb => h b (by simp [hb])]

theorem ops_bytes : ∀ (s : Schema) (v : s.Val), HasType s v → opsBytes (s.ops v) = structBytes s v
  | .field _, f, _ => fieldOps_bytes f
  | .text, v, h => by
    show opsBytes (Schema.ilintOps Id.string ++ Schema.ilintOps (lenU64 (utf8 v).length) ++ [.all (utf8 v)]) = Spec.stringTag v
    have h : (Spec.utf8 v).length < 2 ^ 64 := h
    rw [Look.stringTag_eq, opsBytes_append, opsBytes_append, ilintOps_bytes, ilintOps_bytes, List.append_assoc]
    rw [utf8_eq, lenU64_toNat h]
    simp [opsBytes, opBytes, Id.string]
  | .blob, v, h => by
    show opsBytes (Schema.ilintOps (lenU64 v.length) ++ [.all v]) = Spec.ilint v.length ++ v
    rw [opsBytes_append, ilintOps_bytes, lenU64_toNat h]
    simp [opsBytes, opBytes]
  | .many s, vs, ⟨h, h'⟩ => by
    show opsBytes (Schema.ilintOps (lenU64 vs.length) ++ vs.flatMap s.ops) = Spec.ilint vs.length ++ _
    rw [opsBytes_append, ilintOps_bytes, lenU64_toNat h, opsBytes_flatMap vs fun v hv => ops_bytes s v (h' v hv)]
  | .both a b, (x, y), ⟨h, h'⟩ => by
    show opsBytes (a.ops x ++ b.ops y) = _
    rw [opsBytes_append, ops_bytes a x h, ops_bytes b y h']
    rfl
  | .opt _, none, _ => rfl
  | .opt s, some v, h => by
    show opBytes (.byte 1) ++ opsBytes (s.ops v) = _
    rw [ops_bytes s v h]
    rfl
  | .enum _ c, ⟨b, v⟩, ⟨_, h⟩ => by
    show opBytes (.byte b) ++ opsBytes ((c b).ops v) = _
    rw [ops_bytes (c b) v h]
    rfl

theorem fieldSize_eq (f : Field) : Schema.fieldSize f = (fieldBytes f).length := by
  cases f with
  | ilint v => exact ILInt.encodedSize_eq_length v
  | signedILInt v =>
    show ILInt.encodedSize (ILInt.encodeSign v) = (Spec.ilint _).length
    rw [ILInt.encodedSize_eq_length, ILInt.encodeSign_eq]
  | _ => first | rfl | simp [Schema.fieldSize, fieldBytes, utf8_eq]

theorem sum_flatMap {α : Type} {f : α → Nat} {g : α → Bytes} : ∀ (as : List α),
    (∀ a ∈ as, f a = (g a).length) → (as.map f).sum = (as.flatMap g).length
  | [], _ => rfl
  | a :: as, h => by
    rw [List.map_cons, List.sum_cons, List.flatMap_cons, List.length_append, h a (by simp),
      sum_flatMap as fun b hb => h b (by simp [hb])]

theorem size_eq : ∀ (s : Schema) (v : s.Val), HasType s v → s.size v = (structBytes s v).length
  | .field _, f, _ => fieldSize_eq f
  | .text, v, h => by
    show 1 + ILInt.encodedSize (lenU64 (utf8 v).length) + (utf8 v).length = (Spec.stringTag v).length
    have h : (Spec.utf8 v).length < 2 ^ 64 := h
    have h17 : (Spec.ilint 17).length = 1 := by decide
    rw [utf8_eq, Look.stringTag_eq, ILInt.encodedSize_eq_length, lenU64_toNat h, List.length_append, List.length_append, h17]
    omega
  | .blob, v, h => by
    show ILInt.encodedSize (lenU64 v.length) + v.length = (Spec.ilint v.length ++ v).length
    rw [ILInt.encodedSize_eq_length, lenU64_toNat h, List.length_append]
  | .many s, vs, ⟨h, h'⟩ => by
    show ILInt.encodedSize (lenU64 vs.length) + (vs.map s.size).sum = (Spec.ilint vs.length ++ _).length
    rw [ILInt.encodedSize_eq_length, lenU64_toNat h, List.length_append, sum_flatMap vs fun v hv => size_eq s v (h' v hv)]
  | .both a b, (x, y), ⟨h, h'⟩ => by
    show a.size x + b.size y = (structBytes a x ++ structBytes b y).length
    rw [List.length_append, size_eq a x h, size_eq b y h']
  | .opt _, none, _ => rfl
  | .opt s, some v, h => by
    show 1 + s.size v = (1 :: structBytes s v).length
    rw [size_eq s v h, List.length_cons]
    omega
  | .enum _ c, ⟨b, v⟩, ⟨_, h⟩ => by
    show 1 + (c b).size v = (b :: structBytes (c b) v).length
    rw [size_eq (c b) v h, List.length_cons]
    omega

section
variable {ω : Type} [Writer ω]

theorem runOps_one (op : WOp) : (runOps [op] : Act TagErr ω Unit) = op.run := by
  show (op.run >>= fun _ => Pure.pure ()) = op.run
  exact Act.bind_pure _

theorem runOps_ilint (v : UInt64) : (runOps (Schema.ilintOps v) : Act TagErr ω Unit) = Ser.serializeILInt v := by
  unfold Schema.ilintOps Ser.serializeILInt Data.writeILInt ILInt.encode tagIo
  split
  · rw [runOps_one]; simp only [WOp.run, tagIo, Act.mapErr_mapErr]; rfl
  · rw [runOps_one]; simp only [WOp.run, tagIo, Act.mapErr_mapErr]; rfl

theorem runOps_field (f : Field) : (runOps (Schema.fieldOps f) : Act TagErr ω Unit) = f.serialize := by
  cases f with
  | ilint v => exact runOps_ilint v
  | signedILInt v => exact runOps_ilint _
  | _ => exact runOps_one _

theorem runOps_flatMap {α : Type} {f : α → List WOp} {g : α → Act TagErr ω Unit} : ∀ (as : List α),
    (∀ a ∈ as, runOps (f a) = g a) → runOps (as.flatMap f) = Schema.each g as
  | [], _ => rfl
  | a :: as, h => by
    rw [List.flatMap_cons, runOps_append, h a (by simp), runOps_flatMap as fun b hb => h b (by simp [hb])]
    rfl

/-- The writer calls of a struct are those of its code. -/
theorem runOps_struct : ∀ (s : Schema) (v : s.Val), (runOps (s.ops v) : Act TagErr ω Unit) = s.write v
  | .field _, f => runOps_field f
  | .text, v => by
    show runOps (Schema.ilintOps Id.string ++ Schema.ilintOps (lenU64 (utf8 v).length) ++ [.all (utf8 v)]) =
      serializeStringTag v
    rw [runOps_append, runOps_append, runOps_ilint, runOps_ilint, runOps_one, Act.bind_assoc]
    rfl
  | .blob, v => by
    show runOps (Schema.ilintOps (lenU64 v.length) ++ [.all v]) = Schema.write .blob v
    rw [runOps_append, runOps_ilint, runOps_one]
    rfl
  | .many s, vs => by
    show runOps (Schema.ilintOps (lenU64 vs.length) ++ vs.flatMap s.ops) = Schema.write (.many s) vs
    rw [runOps_append, runOps_ilint, runOps_flatMap vs fun v _ => runOps_struct s v]
    rfl
  | .both a b, (x, y) => by
    show runOps (a.ops x ++ b.ops y) = _
    rw [runOps_append, runOps_struct a x, runOps_struct b y]
    rfl
  | .opt _, none => runOps_one _
  | .opt s, some v => by
    show (WOp.run (.byte 1) >>= fun _ => runOps (s.ops v)) = _
    rw [runOps_struct s v]
    rfl
  | .enum _ c, ⟨b, v⟩ => by
    show (WOp.run (.byte b) >>= fun _ => runOps ((c b).ops v)) = _
    rw [runOps_struct (c b) v]
    rfl

end
end Verif
