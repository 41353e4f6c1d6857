import Verif.Proof.Total
import Verif.Proof.Views
import Verif.Proof.Fuel
import Verif.Proof.Std
import Verif.Proof.Deliver
/-!
# The memory requested in all (C76)
-/
namespace Verif.Props
open Verif Verif.Spec
variable {P : Type} [TagPayload P] {σ : Type} [Reader σ]

/-- **C76** The tree of calls and memory requests is the code: for every factory, reader and amount of memory, running
it gives the result `deserialize` gives and leaves the reader as `deserialize` leaves it. -/
theorem C76_tree [Env] (e : Engine P) (s : σ) :
    Factory.deserialize e σ s = (((PS.deserialize e).run s).1, ((PS.deserialize e).run s).2.2) :=
  IsF.deserializeFuel e Factory.fuel none _ _ _ s

/-- **C76** A successful `deserialize` has requested at most 16 bytes of memory for every byte it was delivered. -/
theorem C76_success_linear [Env] (e : Engine P) (s : σ) (t : Tag P) (w : Counted σ)
    (h : Factory.deserialize e (Counted σ) (Counted.start s) = (.ok t, w)) :
    (PS.deserialize e).requested s ≤ 16 * w.bytes := by
  rw [C76_tree] at h
  obtain ⟨h1, h2⟩ := Prod.mk.inj h
  have h3 := (Earns.deserializeFuel (F := .linear) e Factory.fuel none ()).success (Counted.start s) t h1
  rw [show PS.deserializeFuel e Factory.fuel none () = PS.deserialize e from rfl, h2] at h3
  simp only [Counted.start, Tariff.linear] at h3
  omega

omit [TagPayload P] in
theorem delivered_le {τ α : Type} (V : View σ) (p : Prog τ α) (s : σ) (bs : Bytes) (h : V.R s bs) :
    p.delivered s ≤ bs.length := by
  induction p generalizing s bs with
  | done r t => simp [Prog.delivered]
  | read t k ih =>
    simp only [Prog.delivered]
    cases bs with
    | nil =>
      obtain ⟨e, s', h1, -⟩ := V.read_nil h
      simp only [h1]
      simp
    | cons b bs =>
      obtain ⟨s', h1, h2⟩ := V.read_cons h
      simp only [h1]
      have := ih b s' bs h2
      simp only [List.length_cons] at this ⊢
      omega
  | readAll t n k ih =>
    simp only [Prog.delivered]
    by_cases hn : n ≤ bs.length
    · obtain ⟨s', h1, h2⟩ := V.readAll_ok h hn
      simp only [h1]
      have := ih (bs.take n) s' _ h2
      simp only [List.length_drop] at this
      omega
    · obtain ⟨e, s', h1, -⟩ := V.readAll_short h (n := n) (by omega)
      simp only [h1]
      omega
  | alloc t u c k ih => exact ih s bs h

/-- **C76** Whatever the outcome, no more than 8 GiB for every byte the reader holds. -/
theorem C76_upper (e : Engine P) (V : View σ) (s : σ) (bs : Bytes) (h : V.R s bs) :
    (PS.deserialize e).requested s ≤ 8589934592 * bs.length := by
  have h1 := (Earns.deserializeFuel (F := .advance) e Factory.fuel none ()).always trivial (Int.le_refl _) s
  have h2 := delivered_le V (PS.deserialize e) s bs h
  rw [show PS.deserializeFuel e Factory.fuel none () = PS.deserialize e from rfl] at h1
  simp only [Tariff.advance, maxTagSize] at h1
  omega

/-! ### The upper bound is reached up to a constant -/

/-- `Prog.requested` on a list of bytes. -/
def reqL {τ α : Type} : Prog τ α → Bytes → Nat
  | .done _ _, _ => 0
  | .read _ _, [] => 0
  | .read _ k, b :: bs => reqL (k b) bs
  | .readAll _ n k, bs => if n ≤ bs.length then reqL (k (bs.take n)) (bs.drop n) else 0
  | .alloc _ u c k, bs => u * c + reqL k bs

section
variable {τ τ' α β : Type}
omit [TagPayload P]

theorem requested_eq (V : View σ) (p : Prog τ α) (s : σ) (bs : Bytes) (h : V.R s bs) : p.requested s = reqL p bs := by
  induction p generalizing s bs with
  | done r t => rfl
  | read t k ih =>
    simp only [Prog.requested]
    cases bs with
    | nil =>
      obtain ⟨e, s', h1, -⟩ := V.read_nil h
      simp only [h1, reqL]
    | cons b bs =>
      obtain ⟨s', h1, h2⟩ := V.read_cons h
      simp only [h1, reqL]
      exact ih b s' bs h2
  | readAll t n k ih =>
    simp only [Prog.requested, reqL]
    by_cases hn : n ≤ bs.length
    · obtain ⟨s', h1, h2⟩ := V.readAll_ok h hn
      simp only [h1, if_pos hn]
      exact ih _ s' _ h2
    · obtain ⟨e, s', h1, -⟩ := V.readAll_short h (n := n) (by omega)
      simp only [h1, if_neg hn]
  | alloc t u c k ih => simp only [Prog.requested, reqL, ih s bs h]

omit [Reader σ]
theorem reqL_mapT (p : Prog τ α) (w : τ → τ') (bs : Bytes) : reqL (p.mapT w) bs = reqL p bs := by
  induction p generalizing bs with
  | done r t => rfl
  | read t k ih => cases bs <;> simp only [Prog.mapT, reqL, ih]
  | readAll t n k ih => simp only [Prog.mapT, reqL, ih]
  | alloc t u c k ih => simp only [Prog.mapT, reqL, ih]

theorem reqL_toVal (p : Prog τ Unit) (bs : Bytes) : reqL p.toVal bs = reqL p bs := by
  induction p generalizing bs with
  | done r t => rfl
  | read t k ih => cases bs <;> simp only [Prog.toVal, reqL, ih]
  | readAll t n k ih => simp only [Prog.toVal, reqL, ih]
  | alloc t u c k ih => simp only [Prog.toVal, reqL, ih]

theorem reqL_limit (p : Prog τ α) (m : Nat) (bs : Bytes) (h : bs.length ≤ m) : reqL (p.limit m) bs = reqL p bs := by
  induction p generalizing m bs with
  | done r t => rfl
  | read t k ih =>
    simp only [Prog.limit]
    cases bs with
    | nil => split <;> rfl
    | cons b bs =>
      rw [List.length_cons] at h
      rw [if_neg (by omega)]
      exact ih b _ _ (by omega)
  | readAll t n k ih =>
    simp only [Prog.limit, reqL]
    by_cases hn : n > m
    · rw [if_pos hn, if_neg (by omega)]; rfl
    · rw [if_neg hn]
      simp only [reqL]
      split
      · exact ih _ _ _ (by rw [List.length_drop]; omega)
      · rfl
  | alloc t u c k ih => simp only [Prog.limit, reqL, ih m bs h]

theorem reqL_bind (p : Prog τ α) (f : α → τ → Prog τ β) (bs : Bytes) : reqL p bs ≤ reqL (p.bind f) bs := by
  induction p generalizing bs with
  | done r t => exact Nat.zero_le _
  | read t k ih =>
    cases bs with
    | nil => exact Nat.zero_le _
    | cons b bs => exact ih b bs
  | readAll t n k ih =>
    simp only [Prog.bind, reqL]
    split
    · exact ih _ _
    · exact Nat.zero_le _
  | alloc t u c k ih => simp only [Prog.bind, reqL]; exact Nat.add_le_add_left (ih bs) _
end

/-- 512 MiB as an ILInt. -/
def limitBytes : Bytes := [251, 31, 255, 255, 8]

/-- `d` headers of a tag array, each of 512 MiB that declares as many elements, inside one another. -/
def nestedArrays : Nat → Bytes
  | 0 => []
  | d + 1 => 21 :: (limitBytes ++ (limitBytes ++ nestedArrays d))

theorem reqL_pushTags (f : PS Unit (Tag P)) (n : Nat) (ts : List (Tag P)) (bs : Bytes) :
    reqL (f ()) bs ≤ reqL (PS.pushTags f (n + 1) ts) bs := by
  refine Nat.le_trans (Nat.le_of_eq ?_) (reqL_bind ((f ()).mapT fun _ => ts) _ bs)
  rw [reqL_mapT]

omit [TagPayload P] [Reader σ] in
theorem ilint_tree : PS.ilint () = .read () fun h =>
    if ILInt.decodedSize h = 1 then .done (.ok h.toUInt64) ()
    else .readAll () (ILInt.decodedSize h - 1) fun tmp =>
      .done ((ILInt.decodeBody tmp).mapErr fun x => .ioError (Data.readILIntErr x)) () := by
  show Prog.bind _ _ = _
  simp only [PS.read, Prog.bind]
  congr 1
  funext h
  split <;> rfl

omit [TagPayload P] [Reader σ] in
theorem decode_limit : ILInt.decodeBody [31, 255, 255, 8] = .ok 536870912 := by decide +kernel

omit [TagPayload P] [Reader σ] in
theorem reqL_ilint {β : Type} (K : UInt64 → Unit → Prog Unit β) (bs : Bytes) :
    reqL ((PS.ilint ()).bind K) (limitBytes ++ bs) = reqL (K 536870912 ()) bs := by
  have h1 : ¬ ILInt.decodedSize 251 = 1 := by decide
  have h2 : ILInt.decodedSize 251 - 1 = 4 := by decide
  simp only [ilint_tree, limitBytes, List.cons_append, List.nil_append, Prog.bind, reqL, if_neg h1, h2, List.length_cons,
    List.take_succ_cons, List.take_zero, List.drop_succ_cons, List.drop_zero, decode_limit, Res.mapErr]
  rw [if_pos (by omega)]

omit [TagPayload P] [Reader σ] in
theorem reqL_ilint_limited {τ β : Type} (t : τ) (m : Nat) (K : UInt64 → τ × Nat → Prog (τ × Nat) β) (bs : Bytes) :
    reqL ((PS.limited (PS.onReader PS.ilint) (t, m + 5)).bind K) (limitBytes ++ bs) = reqL (K 536870912 (t, m)) bs := by
  have h1 : ¬ ILInt.decodedSize 251 = 1 := by decide
  have h2 : ILInt.decodedSize 251 - 1 = 4 := by decide
  have h3 : ¬ 1 > m + 5 := by omega
  have h4 : ¬ 4 > m + 5 - 1 := by omega
  simp only [PS.limited, PS.onReader, ilint_tree, limitBytes, List.cons_append, List.nil_append, Prog.mapT, Prog.limit,
    if_neg h3, Prog.bind, reqL, if_neg h1, h2, if_neg h4, List.length_cons,
    List.take_succ_cons, List.take_zero, List.drop_succ_cons, List.drop_zero, decode_limit, Res.mapErr]
  rw [if_pos (by omega)]
  rfl

theorem reqL_array (f : PS Unit (Tag P)) (ts : List (Tag P)) (bs : Bytes) (hb : bs.length + 5 ≤ maxTagSize) :
    16 * maxTagSize + reqL (f ()) bs ≤ reqL (PS.array f maxTagSize ts) (limitBytes ++ bs) := by
  obtain ⟨m, hm⟩ : ∃ m, maxTagSize = m + 5 := ⟨536870907, rfl⟩
  unfold PS.array PS.withLimited
  rw [reqL_mapT]
  show _ ≤ reqL ((PS.limited (PS.onReader PS.ilint) (ts, maxTagSize)).bind _) _
  have hc : (536870912 : UInt64).toNat = m + 5 := hm
  rw [hm]
  refine Nat.le_trans ?_ (Nat.le_of_eq (reqL_ilint_limited ts m _ bs).symm)
  simp only [hc, gt_iff_lt, Nat.lt_irrefl, if_false]
  show _ ≤ 16 * (m + 5) + reqL ((PS.limited (PS.pushTags f (m + 5)) ([], m)).bind _) _
  refine Nat.add_le_add_left (Nat.le_trans ?_ (reqL_bind _ _ _)) _
  unfold PS.limited
  rw [reqL_limit _ _ _ (by simp only; omega)]
  exact reqL_pushTags f _ _ _

theorem reqL_level (e : Engine P) {id : UInt64} {ts : List (Tag P)} (he : e.createTag 21 = .ok (some (.array id ts))) (n : Nat) (bs : Bytes)
    (hb : bs.length + 5 ≤ maxTagSize) :
    16 * maxTagSize + reqL (PS.deserializeFuel e n none ()) bs ≤
      reqL (PS.deserializeFuel e (n + 1) none ()) (21 :: (limitBytes ++ (limitBytes ++ bs))) := by
  have h1 : PS.deserializeFuel e (n + 1) none () = (PS.ilint ()).bind fun id => PS.tagSize id >>= fun size =>
      PS.lift (e.createTag id) >>= fun tag => match tag with
        | none => PS.fail .unknownTag
        | some tag => fun _ => (PS.tagValueInto (PS.deserializeFuel e n) size tag).toVal := rfl
  have h2 : ∀ (K : UInt64 → Unit → Prog Unit (Tag P)) (l : Bytes), reqL ((PS.ilint ()).bind K) (21 :: l) = reqL (K 21 ()) l := by
    intro K l
    have h1 : ILInt.decodedSize 21 = 1 := by decide
    simp only [ilint_tree, Prog.bind, reqL, if_pos h1]
    rfl
  rw [h1]
  refine Nat.le_trans ?_ (Nat.le_of_eq (h2 _ _).symm)
  have h3 : PS.tagSize 21 () = (PS.ilint ()).bind fun size => PS.lift (tagSizeToUsize size) := rfl
  show _ ≤ reqL ((PS.tagSize 21 ()).bind _) _
  rw [h3]
  refine Nat.le_trans ?_ (Nat.le_of_eq (congrArg (reqL · _) (Prog.bind_assoc (PS.ilint ()) _ _)).symm)
  refine Nat.le_trans ?_ (Nat.le_of_eq (reqL_ilint _ _).symm)
  have h4 : tagSizeToUsize 536870912 = .ok maxTagSize := by decide
  show _ ≤ reqL (Prog.bind (.done (tagSizeToUsize 536870912) ()) _) _
  rw [h4]
  show _ ≤ reqL (Prog.bind (.done (e.createTag 21) ()) _) _
  rw [he]
  show _ ≤ reqL ((PS.tagValueInto (PS.deserializeFuel e n) maxTagSize (.array id ts)).toVal) _
  rw [reqL_toVal]
  unfold PS.tagValueInto PS.withLimited
  rw [reqL_mapT]
  refine Nat.le_trans ?_ (reqL_bind _ _ _)
  unfold PS.limited
  rw [reqL_limit _ _ _ (by simp only [List.length_append, limitBytes, List.length_cons, List.length_nil]; omega)]
  show _ ≤ reqL (PS.zoom (Tag.array id) ts (PS.array (PS.deserializeFuel e n none) maxTagSize) (.array id ts)) _
  unfold PS.zoom
  rw [reqL_mapT]
  exact reqL_array _ _ _ hb

omit [TagPayload P] [Reader σ] in
theorem nestedArrays_length (d : Nat) : (nestedArrays d).length = 11 * d := by
  induction d with
  | zero => rfl
  | succ d ih =>
    simp only [nestedArrays, limitBytes, List.length_cons, List.length_append, List.length_nil, ih]
    omega

/-- **C76** 8 GiB for every 11 bytes are requested: with every further header the outer arrays keep theirs. -/
theorem C76_amplification (strict : Bool) (d : Nat) (hd : 11 * d ≤ 536870912) :
    (nestedArrays d).length = 11 * d ∧
    8589934592 * d ≤ (PS.deserialize (Engine.std strict : Engine P)).requested (ByteArrayReader.new (nestedArrays d)) := by
  refine ⟨nestedArrays_length d, ?_⟩
  rw [requested_eq ByteArrayReader.view.toView _ _ (nestedArrays d) (ByteArrayReader.view_new _)]
  obtain ⟨t₀, he, hk, -⟩ := std_create (P := P) (strict := strict) (id := 21) (k := .array) rfl
  generalize (Engine.std strict : Engine P) = e at he
  cases t₀ with
  | array id ts =>
    have key : ∀ n d, d ≤ n → 11 * d ≤ 536870912 → 8589934592 * d ≤ reqL (PS.deserializeFuel e n none ()) (nestedArrays d) := by
      intro n d
      induction d generalizing n with
      | zero => intros; omega
      | succ d ih =>
        intro hn h
        obtain ⟨n, rfl⟩ : ∃ m, n = m + 1 := ⟨n - 1, by omega⟩
        have h1 := ih n (by omega) (by omega)
        have h2 := reqL_level _ he n (nestedArrays d) (by rw [nestedArrays_length]; unfold maxTagSize; omega)
        simp only [nestedArrays]
        unfold maxTagSize at h2
        omega
    exact key Factory.fuel d (by unfold Factory.fuel maxTagSize; omega) hd
  | atom a => cases a <;> simp [Tag.kind, Atom.kind] at hk
  | seq id ts => simp [Tag.kind] at hk
  | dict id ts => simp [Tag.kind] at hk

/-- Two levels, 22 bytes: 16 GiB. -/
example : 11 * 2 ≤ 536870912 ∧ (nestedArrays 2).length = 22 ∧ 8589934592 * 2 = 16 * 1024 ^ 3 := by decide

/-- A byte array of three bytes: five bytes are delivered, three requested. -/
example : (PS.deserializeFuel (Engine.std true : Engine Empty) 2 none ()).requested (ByteArrayReader.new [16, 3, 1, 2, 3]) = 3 ∧
    (@Factory.deserialize Empty _ ⟨1000⟩ (Engine.std true) (Counted ByteArrayReader) _
      (Counted.start (ByteArrayReader.new [16, 3, 1, 2, 3]))).2.bytes = 5 ∧
    (@Factory.deserialize Empty _ ⟨1000⟩ (Engine.std true) (Counted ByteArrayReader) _
      (Counted.start (ByteArrayReader.new [16, 3, 1, 2, 3]))).1.isOk = true := by
  rw [@deserialize_eq Empty _ ⟨1000⟩]; decide +kernel

/-- Two null tags in a tag array: 32 bytes of memory for 5 bytes of data, less than 16 for each. -/
example : (PS.deserializeFuel (Engine.std true : Engine Empty) 3 none ()).requested (ByteArrayReader.new [21, 3, 2, 0, 0]) = 32 := by
  decide +kernel

end Verif.Props
