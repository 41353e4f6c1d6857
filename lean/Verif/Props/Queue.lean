import Verif.Props.Log
import Verif.Spec.Queue
/-!
# C118: a queue of tags in a file
-/
namespace Verif.Props
open Verif Verif.Spec
variable {P : Type}
set_option linter.unusedSectionVars false

section
variable [TagPayload P] [Env]

theorem cutTag_short (hr : MemoryOk) {e : Engine P} {p : Bytes} (hp : CutTag e p) : Parser.top e p = .short := by
  rcases hp with rfl | ⟨t, ht, hp, hl⟩
  · rw [top_eq]; rfl
  · have h := top_enc hr e t ht.1 ht.2 []
    obtain ⟨x, hx⟩ := hp
    rw [List.append_nil, ← hx] at h
    rw [← hx, List.length_append] at hl
    exact short_of_prefix (Local.top e) h (by simp only [List.length_nil]; omega)

/-- How the file stands for the list. -/
structure QueueInv (e : Engine P) (q : FileQueue P) (a : PlainQueue P) (p : Bytes) : Prop where
  good : ∀ t ∈ a.log, MapsOk t ∧ PayloadsOk t ∧ Supported e t
  file : q.file = (a.log.map enc).flatten ++ p
  cut : CutTag e p
  whole : a.torn = false → p = []
  torn : q.torn = a.torn
  next : a.next ≤ a.log.length
  saved : a.saved ≤ a.next
  cursor : q.cursor = ((a.log.take a.next).map enc).flatten.length
  savedAt : q.saved = ((a.log.take a.saved).map enc).flatten.length
  delivered : q.delivered = a.delivered.map fun x => (x.1, canon x.2)
  broken : q.broken = false

theorem queue_start (e : Engine P) : QueueInv e FileQueue.start PlainQueue.start [] where
  good := by simp [PlainQueue.start]
  file := rfl
  cut := .inl rfl
  whole _ := rfl
  torn := rfl
  next := Nat.le_refl _
  saved := Nat.le_refl _
  cursor := rfl
  savedAt := rfl
  delivered := rfl
  broken := rfl

/-- One more tag at the end changes no position before it. -/
theorem QueueInv.append {e : Engine P} {q : FileQueue P} {a : PlainQueue P} (h : QueueInv e q a []) {t : Tag P}
    (ht : MapsOk t ∧ PayloadsOk t ∧ Supported e t) (b : Bool) :
    QueueInv e { q with file := q.file ++ enc t, torn := b } { a with log := a.log ++ [t], torn := b } [] where
  good u hu := by
    rcases List.mem_append.mp hu with hu | hu
    · exact h.good u hu
    · rw [List.mem_singleton.mp hu]; exact ht
  file := by simp [h.file]
  cut := .inl rfl
  whole _ := rfl
  torn := rfl
  next := by simp; exact Nat.le_succ_of_le h.next
  saved := h.saved
  cursor := by simp only; rw [List.take_append_of_le_length h.next]; exact h.cursor
  savedAt := by simp only; rw [List.take_append_of_le_length (Nat.le_trans h.saved h.next)]; exact h.savedAt
  delivered := h.delivered
  broken := h.broken

theorem flatten_drop (L : List (Tag P)) (n : Nat) (p : Bytes) :
    ((L.map enc).flatten ++ p).drop ((L.take n).map enc).flatten.length = ((L.drop n).map enc).flatten ++ p := by
  conv => lhs; rw [← List.take_append_drop n L]
  rw [List.map_append, List.flatten_append, List.append_assoc]
  simp only [List.take_append_drop]
  exact List.drop_left

theorem queue_step (hr : MemoryOk) (e : Engine P) {q : FileQueue P} {a : PlainQueue P} {p : Bytes}
    (h : QueueInv e q a p) (act : QueueAct P)
    (ht : ∀ t, act.tag? = some t → MapsOk t ∧ PayloadsOk t ∧ Supported e t) :
    ∃ p', QueueInv e (q.step e act) (a.step act) p' := by
  cases act with
  | put t =>
    obtain ⟨hm, hp, hs⟩ := ht t rfl
    simp only [FileQueue.step, PlainQueue.step, h.torn]
    cases ha : a.torn with
    | true => exact ⟨p, h⟩
    | false =>
      have := h.whole ha
      subst this
      have hq : q.torn = false := h.torn.trans ha
      refine ⟨[], ?_⟩
      simp only [Bool.false_eq_true, if_false, FileQueue.write]
      rw [toBytes_eq_enc hr hm hp hs]
      have e1 : ({ q with file := q.file ++ enc t } : FileQueue P) = { q with file := q.file ++ enc t, torn := false } := by
        rw [← hq]
      show QueueInv e { q with file := q.file ++ enc t } { a with log := a.log ++ [t], torn := false } []
      rw [e1]
      exact h.append ⟨hm, hp, hs⟩ false
  | tear t k =>
    obtain ⟨hm, hp, hs⟩ := ht t rfl
    simp only [FileQueue.step, PlainQueue.step, h.torn]
    cases ha : a.torn with
    | true => exact ⟨p, h⟩
    | false =>
      have := h.whole ha
      subst this
      have hl := enc_length_le hs
      have h9 : maxValue = 536870912 := rfl
      have h2 : t.size.toNat = (enc t).length := by
        rw [t.size_eq hp (by omega), UInt64.toNat_ofNat']
        exact Nat.mod_eq_of_lt (by omega)
      simp only [Bool.false_eq_true, if_false, FileQueue.write]
      rw [toBytes_eq_enc hr hm hp hs, h2]
      by_cases hk : (enc t).length ≤ k
      · rw [if_pos hk]
        simp only [List.take_of_length_le hk]
        exact ⟨[], h.append ⟨hm, hp, hs⟩ true⟩
      · rw [if_neg hk]
        exact ⟨(enc t).take k, { h with
          file := by simp [h.file]
          cut := .inr ⟨t, ⟨hm, hs⟩, List.take_prefix _ _, by rw [List.length_take]; omega⟩
          whole := fun hh => by cases hh
          torn := rfl }⟩
  | take j =>
    have hd : q.file.drop q.cursor = ((a.log.drop a.next).map enc).flatten ++ p := by
      rw [h.file, h.cursor, flatten_drop]
    simp only [FileQueue.step, PlainQueue.step, hd]
    have hv := deserialize_matches e (ByteArrayReader.viewOf (((a.log.drop a.next).map enc).flatten ++ p))
      (s := .new (((a.log.drop a.next).map enc).flatten ++ p)) ⟨rfl, ByteArrayReader.view_new _⟩
    rcases Nat.lt_or_ge a.next a.log.length with hn | hn
    · rw [List.getElem?_eq_getElem hn]
      have hc : a.log.drop a.next = a.log[a.next] :: a.log.drop (a.next + 1) := List.drop_eq_getElem_cons hn
      obtain ⟨hm, -, hs⟩ := h.good _ (List.getElem_mem hn)
      have htop := top_enc hr e a.log[a.next] hm hs (((a.log.drop (a.next + 1)).map enc).flatten ++ p)
      have hb : ((a.log.drop a.next).map enc).flatten ++ p
          = enc a.log[a.next] ++ (((a.log.drop (a.next + 1)).map enc).flatten ++ p) := by
        rw [hc]
        simp only [List.map_cons, List.flatten_cons, List.append_assoc]
      rw [hb] at hv ⊢
      rw [htop] at hv
      obtain ⟨s', h1, h2, h3, h4⟩ := hv
      rw [h1]
      rw [h2] at h3 h4
      have ho : s'.offset = (enc a.log[a.next]).length := by
        have := congrArg List.length h4
        simp only [List.length_drop, List.length_append] at this h3
        omega
      refine ⟨p, { h with
        next := hn
        saved := Nat.le_succ_of_le h.saved
        cursor := ?_
        delivered := by simp [h.delivered] }⟩
      simp only [h.cursor, ho]
      rw [List.take_add_one, List.getElem?_eq_getElem hn, Option.toList_some, List.map_append, List.flatten_append,
        List.length_append]
      simp only [List.map_cons, List.map_nil, List.flatten_cons, List.flatten_nil, List.append_nil]
    · rw [List.getElem?_eq_none hn]
      rw [List.drop_of_length_le hn] at hv ⊢
      simp only [List.map_nil, List.flatten_nil, List.nil_append] at hv ⊢
      rw [cutTag_short hr h.cut] at hv
      obtain ⟨i, s', hv, -⟩ := hv
      rw [hv]
      exact ⟨p, h⟩
  | save =>
    exact ⟨p, { h with saved := Nat.le_refl _, savedAt := h.cursor }⟩
  | restart =>
    refine ⟨[], { h with
      file := ?_, cut := .inl rfl, whole := fun _ => rfl, torn := rfl, next := Nat.le_trans h.saved h.next,
      saved := Nat.le_refl _, cursor := h.savedAt }⟩
    simp only [FileQueue.step, PlainQueue.step, List.append_nil]
    rw [h.file, wholeTags_eq hr e _ p h.good h.cut]

omit [Env] in
/-- What the list does in one step: its tags stay, what was delivered stays, and so on. -/
theorem plain_step (a : PlainQueue P) (act : QueueAct P) :
    a.log <+: (a.step act).log ∧ a.delivered <+: (a.step act).delivered := by
  cases act with
  | put t => simp only [PlainQueue.step]; split <;> simp
  | tear t k =>
    simp only [PlainQueue.step]
    by_cases ha : a.torn = true
    · simp [ha]
    · by_cases hk : t.size.toNat ≤ k <;> simp [ha, hk]
  | take j => simp only [PlainQueue.step]; split <;> simp
  | save => simp [PlainQueue.step]
  | restart => simp [PlainQueue.step]

/-- What holds of the list all the time. -/
structure PlainInv (a : PlainQueue P) : Prop where
  /-- What was delivered was written. -/
  mem : ∀ x ∈ a.delivered, x.2 ∈ a.log
  /-- What was passed was delivered. -/
  passed : ∀ i t, i < a.next → a.log[i]? = some t → t ∈ a.delivered.map (·.2)
  next : a.next ≤ a.log.length
  saved : a.saved ≤ a.next

omit [Env] in
theorem plain_inv (acts : List (QueueAct P)) : PlainInv (PlainQueue.run acts) := by
  have step : ∀ (a : PlainQueue P) (act : QueueAct P), PlainInv a → PlainInv (a.step act) := by
    intro a act h
    cases act with
    | put t =>
      simp only [PlainQueue.step]
      split
      · exact h
      · exact ⟨fun x hx => List.mem_append_left _ (h.mem x hx), fun i u hi hu => h.passed i u hi
          (by rwa [List.getElem?_append_left (Nat.lt_of_lt_of_le hi h.next)] at hu),
          by simp; exact Nat.le_succ_of_le h.next, h.saved⟩
    | tear t k =>
      simp only [PlainQueue.step]
      by_cases ha : a.torn = true
      · simp only [ha, if_true]; exact h
      · by_cases hk : t.size.toNat ≤ k
        · simp only [ha, hk, if_true, Bool.false_eq_true, if_false]
          exact ⟨fun x hx => List.mem_append_left _ (h.mem x hx), fun i u hi hu => h.passed i u hi
            (by rwa [List.getElem?_append_left (Nat.lt_of_lt_of_le hi h.next)] at hu),
            by simp; exact Nat.le_succ_of_le h.next, h.saved⟩
        · simp only [ha, hk, Bool.false_eq_true, if_false]
          exact ⟨h.mem, h.passed, h.next, h.saved⟩
    | take j =>
      simp only [PlainQueue.step]
      split
      · rename_i t ht
        refine ⟨fun x hx => ?_, fun i u hi hu => ?_, ?_, Nat.le_succ_of_le h.saved⟩
        · rcases List.mem_append.mp hx with hx | hx
          · exact h.mem x hx
          · rw [List.mem_singleton.mp hx]; exact List.mem_of_getElem? ht
        · simp only [List.map_append, List.mem_append]
          rcases Nat.lt_or_ge i a.next with hlt | hge
          · exact .inl (h.passed i u hlt hu)
          · have : i = a.next := by simp only at hi; omega
            subst this
            rw [ht] at hu
            cases hu
            exact .inr (by simp)
        · exact (List.getElem?_eq_some_iff.mp ht).1
      · exact h
    | save => exact ⟨h.mem, h.passed, h.next, Nat.le_refl _⟩
    | restart =>
      exact ⟨h.mem, fun i u hi hu => h.passed i u (Nat.lt_of_lt_of_le hi h.saved) hu, Nat.le_trans h.saved h.next,
        Nat.le_refl _⟩
  unfold PlainQueue.run
  have key : ∀ (acts : List (QueueAct P)) (a : PlainQueue P), PlainInv a → PlainInv (acts.foldl PlainQueue.step a) := by
    intro acts
    induction acts with
    | nil => intro a h; exact h
    | cons act acts ih => intro a h; exact ih _ (step a act h)
  exact key acts _ ⟨by simp [PlainQueue.start], by simp [PlainQueue.start], Nat.le_refl _, Nat.le_refl _⟩

omit [Env] in
theorem delivered_log (acts : List (QueueAct P)) :
    ∀ x ∈ (PlainQueue.run acts).delivered, x.2 ∈ (PlainQueue.run acts).log := (plain_inv acts).mem

/-- The tags the actions write can be written and read. -/
def GoodActs (e : Engine P) (acts : List (QueueAct P)) : Prop :=
  ∀ act ∈ acts, ∀ t, act.tag? = some t → MapsOk t ∧ PayloadsOk t ∧ Supported e t

theorem queue_inv (hr : MemoryOk) (e : Engine P) (acts : List (QueueAct P)) (hg : GoodActs e acts) :
    ∃ p, QueueInv e (FileQueue.run e acts) (PlainQueue.run acts) p := by
  unfold FileQueue.run PlainQueue.run
  have key : ∀ (acts : List (QueueAct P)) (q : FileQueue P) (a : PlainQueue P) (p : Bytes), GoodActs e acts →
      QueueInv e q a p → ∃ p, QueueInv e (acts.foldl (FileQueue.step e) q) (acts.foldl PlainQueue.step a) p := by
    intro acts
    induction acts with
    | nil => intro q a p _ h; exact ⟨p, h⟩
    | cons act acts ih =>
      intro q a p hg h
      obtain ⟨p', h'⟩ := queue_step hr e h act (hg act (by simp))
      exact ih _ _ p' (fun x hx => hg x (by simp [hx])) h'
  exact key acts _ _ [] hg (queue_start e)

/-- **C118** Whatever happens, in whatever order, the queue in the file does what the list in memory does: the same
consumers get the same tags, in the same order; reading never fails other than for want of data; and opening the file
shows exactly the tags of the list. -/
theorem C118_behaves (hr : MemoryOk) (e : Engine P) (acts : List (QueueAct P)) (hg : GoodActs e acts) :
    let q := FileQueue.run e acts
    let a := PlainQueue.run acts
    q.broken = false ∧ q.delivered.map (·.1) = a.delivered.map (·.1) ∧
    (∀ (i : Nat) (h : i < a.delivered.length) (h' : i < q.delivered.length), Same a.delivered[i].2 q.delivered[i].2) ∧
    (openLog e q.file).ended = none ∧ (openLog e q.file).tags.length = a.log.length ∧
    (∀ (i : Nat) (h : i < a.log.length) (h' : i < (openLog e q.file).tags.length),
      Same a.log[i] (openLog e q.file).tags[i]) := by
  obtain ⟨p, h⟩ := queue_inv hr e acts hg
  have ho := openLog_eq hr e _ p h.good h.cut
  rw [← h.file] at ho
  have hd := delivered_log acts
  refine ⟨h.broken, by rw [h.delivered]; simp, fun i h1 h2 => ?_, by rw [ho], by rw [ho]; simp, fun i h1 h2 => ?_⟩
  · simp only [h.delivered, List.getElem_map]
    exact same_canon (h.good _ (hd _ (List.getElem_mem h1))).1
  · simp only [ho, List.getElem_map]
    exact same_canon (h.good _ (List.getElem_mem h1)).1

omit [Env] in
theorem plain_append (acts more : List (QueueAct P)) :
    PlainQueue.run (acts ++ more) = more.foldl PlainQueue.step (PlainQueue.run acts) := List.foldl_append

/-- **C118** Nothing is lost: whatever happens later, the tags found in the file before are found again, in front of
the ones written since; and a tag written while no write is cut short is found behind them. -/
theorem C118_kept (hr : MemoryOk) (e : Engine P) (acts more : List (QueueAct P)) (hg : GoodActs e (acts ++ more)) :
    (openLog e (FileQueue.run e acts).file).tags <+: (openLog e (FileQueue.run e (acts ++ more)).file).tags ∧
    (FileQueue.run e acts).delivered <+: (FileQueue.run e (acts ++ more)).delivered ∧
    ∀ t, MapsOk t ∧ PayloadsOk t ∧ Supported e t → (FileQueue.run e acts).torn = false →
      ∃ t', Same t t' ∧ (openLog e (FileQueue.run e (acts ++ [.put t])).file).tags
        = (openLog e (FileQueue.run e acts).file).tags ++ [t'] := by
  have hg1 : GoodActs e acts := fun x hx => hg x (List.mem_append_left _ hx)
  obtain ⟨p, h⟩ := queue_inv hr e acts hg1
  obtain ⟨p', h'⟩ := queue_inv hr e (acts ++ more) hg
  have hp : ∀ (more : List (QueueAct P)) (a : PlainQueue P), a.log <+: (more.foldl PlainQueue.step a).log ∧
      a.delivered <+: (more.foldl PlainQueue.step a).delivered := by
    intro more
    induction more with
    | nil => intro a; exact ⟨List.prefix_rfl, List.prefix_rfl⟩
    | cons act more ih =>
      intro a
      exact ⟨(plain_step a act).1.trans (ih _).1, (plain_step a act).2.trans (ih _).2⟩
  have hp := hp more (PlainQueue.run acts)
  rw [← plain_append] at hp
  refine ⟨?_, ?_, fun t ht htorn => ⟨canon t, same_canon ht.1, ?_⟩⟩
  · rw [h.file, h'.file, openLog_eq hr e _ p h.good h.cut, openLog_eq hr e _ p' h'.good h'.cut]
    exact hp.1.map _
  · rw [h.delivered, h'.delivered]
    exact hp.2.map _
  · obtain ⟨p'', h''⟩ := queue_inv hr e (acts ++ [.put t]) fun x hx => by
      rcases List.mem_append.mp hx with hx | hx
      · exact hg1 x hx
      · rw [List.mem_singleton.mp hx]; rintro _ ⟨⟩; exact ht
    have ha : (PlainQueue.run acts).torn = false := h.torn ▸ htorn
    have hl : (PlainQueue.run (acts ++ [.put t])).log = (PlainQueue.run acts).log ++ [t] := by
      rw [plain_append]
      simp [PlainQueue.step, ha]
    rw [h.file, h''.file, openLog_eq hr e _ p h.good h.cut, openLog_eq hr e _ p'' h''.good h''.cut, hl]
    simp

/-- Whenever the program ended, the position had been saved since the last tag was taken. -/
def SavedInTime (acts : List (QueueAct P)) : Prop :=
  ∀ before after, acts = before ++ .restart :: after → (PlainQueue.run before).saved = (PlainQueue.run before).next

omit [Env] in
theorem plain_once (acts : List (QueueAct P)) (hs : SavedInTime acts) :
    (PlainQueue.run acts).delivered.map (·.2) = (PlainQueue.run acts).log.take (PlainQueue.run acts).next := by
  have key : ∀ (todo done : List (QueueAct P)), acts = done ++ todo →
      (PlainQueue.run done).delivered.map (·.2) = (PlainQueue.run done).log.take (PlainQueue.run done).next →
      (PlainQueue.run acts).delivered.map (·.2) = (PlainQueue.run acts).log.take (PlainQueue.run acts).next := by
    intro todo
    induction todo with
    | nil => intro done hd h; rw [hd, List.append_nil]; exact h
    | cons act todo ih =>
      intro done hd h
      refine ih (done ++ [act]) (by simp [hd]) ?_
      have hi := plain_inv done
      rw [plain_append]
      simp only [List.foldl_cons, List.foldl_nil]
      cases act with
      | put t =>
        simp only [PlainQueue.step]
        split
        · exact h
        · simp only; rw [h, List.take_append_of_le_length hi.next]
      | tear t k =>
        simp only [PlainQueue.step]
        by_cases ha : (PlainQueue.run done).torn = true
        · simp only [ha, if_true]; exact h
        · by_cases hk : t.size.toNat ≤ k
          · simp only [ha, hk, if_true, Bool.false_eq_true, if_false]
            rw [h, List.take_append_of_le_length hi.next]
          · simp only [ha, hk, Bool.false_eq_true, if_false]
            exact h
      | take j =>
        simp only [PlainQueue.step]
        split
        · rename_i t ht
          simp only [List.map_append, List.map_cons, List.map_nil]
          rw [h, List.take_add_one, ht, Option.toList_some]
        · exact h
      | save => exact h
      | restart =>
        have := hs done todo hd
        simp only [PlainQueue.step]
        rw [this]
        exact h
  exact key acts [] rfl rfl

/-- **C118** Exactly once: if the position had been saved since the last tag was taken whenever the program ended, in
particular if it never ended, the tags given out so far, to whatever consumers, are the first tags in the file, in
order, each once. -/
theorem C118_exactly_once (hr : MemoryOk) (e : Engine P) (acts : List (QueueAct P)) (hg : GoodActs e acts)
    (hs : SavedInTime acts) :
    (FileQueue.run e acts).delivered.map (·.2) <+: (openLog e (FileQueue.run e acts).file).tags := by
  obtain ⟨p, h⟩ := queue_inv hr e acts hg
  have ho := openLog_eq hr e _ p h.good h.cut
  rw [← h.file] at ho
  have h1 := plain_once acts hs
  have h2 : (FileQueue.run e acts).delivered.map (·.2) = ((PlainQueue.run acts).delivered.map (·.2)).map canon := by
    rw [h.delivered]; simp
  rw [h2, h1, ho]
  exact (List.take_prefix _ _).map _

/-- **C118** At least once, and nobody waits in vain: after anything that may have happened, as many attempts as there
are tags in the file, by whatever consumers, and every tag in the file has been given out. -/
theorem C118_at_least_once (hr : MemoryOk) (e : Engine P) (acts : List (QueueAct P)) (hg : GoodActs e acts)
    (js : List Nat) (hj : (openLog e (FileQueue.run e acts).file).tags.length ≤ js.length) :
    ∀ t ∈ (openLog e (FileQueue.run e acts).file).tags,
      t ∈ (FileQueue.run e (acts ++ js.map .take)).delivered.map (·.2) := by
  obtain ⟨p, h⟩ := queue_inv hr e acts hg
  have ho := openLog_eq hr e _ p h.good h.cut
  rw [← h.file] at ho
  have hg' : GoodActs e (acts ++ js.map .take) := by
    intro x hx
    rcases List.mem_append.mp hx with hx | hx
    · exact hg x hx
    · obtain ⟨j, -, rfl⟩ := List.mem_map.mp hx
      rintro _ ⟨⟩
  obtain ⟨p', h'⟩ := queue_inv hr e _ hg'
  have key : ∀ (js : List Nat) (a : PlainQueue P), a.next ≤ a.log.length →
      ((js.map .take).foldl PlainQueue.step a).log = a.log ∧
      min a.log.length (a.next + js.length) ≤ ((js.map QueueAct.take).foldl PlainQueue.step a).next := by
    intro js
    induction js with
    | nil => intro a ha; exact ⟨rfl, by simp; omega⟩
    | cons j js ih =>
      intro a ha
      simp only [List.map_cons, List.foldl_cons]
      cases hq : a.log[a.next]? with
      | some t =>
        have hlt := (List.getElem?_eq_some_iff.mp hq).1
        have := ih { a with next := a.next + 1, delivered := a.delivered ++ [(j, t)] } hlt
        simp only [PlainQueue.step, hq]
        refine ⟨this.1, ?_⟩
        have := this.2
        simp only [List.length_cons] at this ⊢
        omega
      | none =>
        have := List.getElem?_eq_none_iff.mp hq
        simp only [PlainQueue.step, hq]
        refine ⟨(ih a ha).1, ?_⟩
        have := (ih a ha).2
        simp only [List.length_cons]
        omega
  have hi := plain_inv acts
  obtain ⟨k1, k2⟩ := key js (PlainQueue.run acts) hi.next
  rw [← plain_append] at k1 k2
  intro t ht
  rw [ho] at ht hj
  simp only [List.length_map] at hj
  obtain ⟨u, hu, rfl⟩ := List.mem_map.mp ht
  obtain ⟨i, hlt, rfl⟩ := List.mem_iff_getElem.mp hu
  have hd := (plain_inv (acts ++ js.map .take)).passed i (PlainQueue.run acts).log[i] (by omega)
    (by rw [k1]; exact List.getElem?_eq_getElem hlt)
  rw [h'.delivered]
  obtain ⟨x, hx, he⟩ := List.mem_map.mp hd
  exact List.mem_map.mpr ⟨(x.1, canon x.2), List.mem_map.mpr ⟨x, hx, rfl⟩, by simp [he]⟩

end

section
attribute [local instance] bigEnv

/-- Three tags written, the third cut short; two taken and one saved. -/
def queueActs : List (QueueAct Empty) :=
  [.put (.atom (.string 17 "ab")), .take 7, .save, .put (.atom (.ilint 10 5)), .take 8, .tear (.atom (.string 17 "cd")) 3,
    .put (.atom (.ilint 10 6)), .take 7, .restart, .take 9, .put (.atom (.ilint 10 7)), .take 7]

theorem queueActs_good : GoodActs (Engine.std true) queueActs := by
  intro act ha t ht
  refine ⟨?_, sample_payloads t, ?_⟩
  · exact mapsOk_of_B (by
      simp only [queueActs, List.mem_cons, List.not_mem_nil, or_false] at ha
      rcases ha with rfl|rfl|rfl|rfl|rfl|rfl|rfl|rfl|rfl|rfl|rfl|rfl <;> cases ht <;> decide +kernel)
  · exact supported_of_B (by
      simp only [queueActs, List.mem_cons, List.not_mem_nil, or_false] at ha
      rcases ha with rfl|rfl|rfl|rfl|rfl|rfl|rfl|rfl|rfl|rfl|rfl|rfl <;> cases ht <;> decide +kernel)

/-- What becomes of them: the number 5 is taken twice, the string "cd" and the number 6 are not in the file, and the
number 7 is taken. -/
example : (PlainQueue.run queueActs).delivered.map (fun x => (x.1, enc x.2)) =
      [(7, [17, 2, 97, 98]), (8, [10, 5]), (9, [10, 5]), (7, [10, 7])] ∧
    (PlainQueue.run queueActs).log.map enc = [[17, 2, 97, 98], [10, 5], [10, 7]] := by
  refine ⟨by decide +kernel, by decide +kernel⟩

/-- **C118** If the program ends after a tag was taken and before the position was saved, the tag is given out again. -/
theorem C118_twice : ∃ acts : List (QueueAct Empty), GoodActs (Engine.std true) acts ∧
    (FileQueue.run (Engine.std true) acts).delivered.map (·.1) = [7, 8, 9, 7] ∧
    (∃ a b : Tag Empty, (FileQueue.run (Engine.std true) acts).delivered[1]? = some (8, a) ∧
      (FileQueue.run (Engine.std true) acts).delivered[2]? = some (9, b) ∧ a = b ∧ enc a = [10, 5]) ∧
    (openLog (Engine.std true : Engine Empty) (FileQueue.run (Engine.std true) acts).file).tags.length = 3 := by
  obtain ⟨p, h⟩ := queue_inv bigEnv_ok (Engine.std true) queueActs queueActs_good
  have ho := openLog_eq bigEnv_ok (Engine.std true) _ p h.good h.cut
  rw [← h.file] at ho
  refine ⟨queueActs, queueActs_good, ?_, ?_, ?_⟩
  · rw [h.delivered]; decide +kernel
  · rw [h.delivered]
    exact ⟨.atom (.ilint 10 5), .atom (.ilint 10 5), rfl, rfl, rfl, by decide +kernel⟩
  · rw [ho]
    show ((PlainQueue.run queueActs).log.map canon).length = 3
    decide +kernel

/-- Histories in which the position is always saved in time, with a restart. -/
example : SavedInTime ([.put (.atom (.ilint 10 5)), .take 1, .save, .restart, .take 2] : List (QueueAct Empty)) := by
  intro before after h
  match before, h with
  | [_, _, _], h =>
    simp only [List.cons_append, List.nil_append, List.cons.injEq] at h
    obtain ⟨rfl, rfl, rfl, -⟩ := h
    rfl
  | [_, _, _, _], h => simp at h
  | [], h => simp at h
  | [_], h => simp at h
  | [_, _], h => simp at h
  | _ :: _ :: _ :: _ :: _ :: _, h => simp at h
end
end Verif.Props
