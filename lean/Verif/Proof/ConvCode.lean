import Verif.Model.ConvCode
import Verif.Spec.Noted
import Verif.Spec.Writer
import Verif.Proof.Ser
import Verif.Proof.ReadCode
/-!
# What is written is a fixed series of calls, for every tag
-/
namespace Verif
open Spec
set_option linter.unusedSectionVars false

/-- The action makes a fixed series of calls, whatever the writer. -/
def IsOps (m : ∀ (ω : Type) [Writer ω], Act TagErr ω Unit) : Prop := WritesIf False m []

theorem WritesIf.isOps {C : Prop} {m : ∀ (ω : Type) [Writer ω], Act TagErr ω Unit} {bs : Bytes} (h : WritesIf C m bs) :
    IsOps m := by
  obtain ⟨ops, r, h1, -⟩ := h
  exact ⟨ops, r, h1, False.elim⟩

namespace IsOps
variable {m n : ∀ (ω : Type) [Writer ω], Act TagErr ω Unit}

theorem bind (h : IsOps m) (h' : IsOps n) : IsOps (fun ω _ => do m ω; n ω) := (WritesIf.bind h h').isOps
theorem nil : IsOps (fun _ _ => pure ()) := (WritesIf.nil (C := False)).isOps
theorem fail (e : TagErr) : IsOps (fun _ _ => Act.fail e) := ⟨[], .err e, fun _ _ => rfl, False.elim⟩
theorem ilint (v : UInt64) : IsOps (fun _ _ => Ser.serializeILInt v) := (WritesIf.ilint (C := False) v).isOps
theorem stringTag (s : String) : IsOps (fun _ _ => serializeStringTag s) :=
  (WritesIf.stringTag (C := False) False.elim).isOps
theorem serializeWith (id vs : UInt64) (h : IsOps m) : IsOps (fun ω _ => Tag.serializeWith id vs (m ω)) :=
  (WritesIf.serializeWith (C := False) h False.elim).isOps

theorem strEntries (es : List (String × String)) (ks : List String) :
    IsOps (fun _ _ => Atom.serializeStrEntries es ks) := by
  induction ks with
  | nil => exact nil
  | cons k ks ih =>
    unfold Atom.serializeStrEntries
    rcases HMap.get k es with _ | v
    · exact fail _
    · exact (stringTag k).bind ((stringTag v).bind ih)

variable {P : Type} [TagPayload P]

theorem atom (a : Atom P) : IsOps (fun _ _ => a.serializeValue) := by
  cases a with
  | strDict id es => exact (ilint _).bind (strEntries es _)
  | _ => exact (Atom.writes _ (by trivial)).isOps

theorem seq (ts : List (Tag P)) (h : ∀ t ∈ ts, IsOps (fun _ _ => t.serialize)) :
    IsOps (fun _ _ => Tag.serializeSeq ts) := by
  induction ts with
  | nil => simp only [Tag.serializeSeq]; exact nil
  | cons t ts ih =>
    simp only [Tag.serializeSeq]
    exact (h t (by simp)).bind (ih fun u hu => h u (by simp [hu]))

theorem entries (es : List (String × Tag P)) (h : ∀ k t, (k, t) ∈ es → IsOps (fun _ _ => t.serialize))
    (ks : List String) : IsOps (fun _ _ => Tag.serializeEntries (Tag.entrySerializers es) ks) := by
  induction ks with
  | nil => exact nil
  | cons k ks ih =>
    have hg : ∀ (ω : Type) [Writer ω], HMap.get k (Tag.entrySerializers es : List (String × Act TagErr ω Unit)) =
        (HMap.get k es).map fun t => t.serialize := fun ω _ => by
      rw [Tag.entrySerializers_eq, HMap.get_map]
    simp only [Tag.serializeEntries, hg]
    rcases hk : HMap.get k es with _ | t
    · exact fail _
    · exact (stringTag k).bind ((h k t (HMap.mem_of_get hk)).bind ih)

theorem value (t : Tag P) : IsOps (fun _ _ => t.serializeValue) := by
  have hser : ∀ t : Tag P, IsOps (fun _ _ => t.serializeValue) → IsOps (fun _ _ => t.serialize) :=
    fun t h => serializeWith _ _ h
  induction t using Tag.ind with
  | atom a => simp only [Tag.serializeValue]; exact atom a
  | seq id ts ih => simp only [Tag.serializeValue]; exact seq ts fun t ht => hser t (ih t ht)
  | array id ts ih => simp only [Tag.serializeValue]; exact (ilint _).bind (seq ts fun t ht => hser t (ih t ht))
  | dict id es ih =>
    simp only [Tag.serializeValue]
    exact (ilint _).bind (entries es (fun k t ht => hser t (ih k t ht)) _)

theorem tag (t : Tag P) : IsOps (fun _ _ => t.serialize) := serializeWith _ _ (value t)

theorem out (x : Out P) : IsOps (fun _ _ => x.run) := by
  cases x with
  | byte b => exact (WritesIf.byte (C := False) b).isOps
  | all bs => exact (WritesIf.all (C := False) bs).isOps
  | ilint v => exact ilint v
  | signedILInt v => exact (WritesIf.signed (C := False) v).isOps
  | stringTag s => exact stringTag s
  | tag t => exact tag t
  | value t => exact value t

end IsOps

section
variable {ω : Type} [Writer ω]

theorem Noted.op (op : WOp) (w : Noted ω) :
    (∃ w', op.run w = (.ok (), ⟨w', w.log ++ opBytes op, w.failed⟩) ∧ (op.run w.writer : _ × ω) = (.ok (), w')) ∨
    ∃ x w', x.isOk = false ∧ op.run w = (ofFailure x, ⟨w', w.log, w.failed ++ [x]⟩) ∧
      (op.run w.writer : _ × ω) = (ofFailure x, w') := by
  cases op with
  | byte b =>
    simp only [WOp.run, tagIo, Act.mapErr, Writer.write, Noted.note]
    rcases h : Writer.write b w.writer with ⟨r, w'⟩
    cases r with
    | ok u => exact .inl ⟨w', rfl, rfl⟩
    | err e => exact .inr ⟨.err e, w', rfl, rfl, rfl⟩
    | panic => exact .inr ⟨.panic, w', rfl, rfl, rfl⟩
    | diverge => exact .inr ⟨.diverge, w', rfl, rfl, rfl⟩
  | all bs =>
    simp only [WOp.run, tagIo, Act.mapErr, Writer.writeAll, Noted.note]
    rcases h : Writer.writeAll bs w.writer with ⟨r, w'⟩
    cases r with
    | ok u => exact .inl ⟨w', rfl, rfl⟩
    | err e => exact .inr ⟨.err e, w', rfl, rfl, rfl⟩
    | panic => exact .inr ⟨.panic, w', rfl, rfl, rfl⟩
    | diverge => exact .inr ⟨.diverge, w', rfl, rfl, rfl⟩

theorem ofFailure_bind {σ α β : Type} {x : Res IoErr Unit} (hx : x.isOk = false) {m : Act TagErr σ α} {k : α → Act TagErr σ β}
    {s s' : σ} (h : m s = (ofFailure x, s')) : (m >>= k) s = (ofFailure x, s') := by
  cases x with
  | ok u => simp [Res.isOk] at hx
  | err e => rw [Act.bind_err h]; rfl
  | panic => rw [Act.bind_panic h]; rfl
  | diverge => rw [Act.bind_diverge h]; rfl

/-- On a watched writer. -/
theorem Noted.runOps (ops : List WOp) (w : Noted ω) :
    (∃ w', Verif.runOps ops w = (.ok (), ⟨w', w.log ++ opsBytes ops, w.failed⟩) ∧
      Verif.runOps ops w.writer = (.ok (), w')) ∨
    ∃ x w' pre, pre <+: opsBytes ops ∧ x.isOk = false ∧
      Verif.runOps ops w = (ofFailure x, ⟨w', w.log ++ pre, w.failed ++ [x]⟩) ∧
      Verif.runOps ops w.writer = (ofFailure x, w') := by
  induction ops generalizing w with
  | nil => exact .inl ⟨w.writer, by simp [Verif.runOps, opsBytes], rfl⟩
  | cons op ops ih =>
    simp only [Verif.runOps]
    rcases Noted.op op w with ⟨w₁, h1, h2⟩ | ⟨x, w₁, hx, h1, h2⟩
    · rw [Act.bind_ok h1, Act.bind_ok h2]
      rcases ih ⟨w₁, w.log ++ opBytes op, w.failed⟩ with ⟨w', h3, h4⟩ | ⟨x, w', pre, hp, hx, h3, h4⟩
      · exact .inl ⟨w', by rw [h3]; simp [opsBytes], h4⟩
      · refine .inr ⟨x, w', opBytes op ++ pre, ?_, hx, by rw [h3]; simp, h4⟩
        simpa [opsBytes] using hp
    · refine .inr ⟨x, w₁, [], List.nil_prefix, hx, ?_, ofFailure_bind hx h2⟩
      rw [ofFailure_bind hx h1]; simp

end
end Verif
