import Verif.Props.Normal
import Verif.Props.Journal
import Verif.Props.Scanner
import Verif.Props.Patch
import Verif.Props.Levels
import Verif.Proof.Canonical
import Verif.Proof.Bulk
/-!
# C122: tags that are too large to be read again
-/
namespace Verif.Props
open Verif Verif.Spec
variable {P : Type} [TagPayload P]
set_option linter.unusedSectionVars false

/-- A tag inside has a value that is no longer. -/
theorem inner_value_le {u t : Tag P} (h : Within u t) : (encValue u).length ≤ (encValue t).length := by
  letI : Env := bigEnv
  induction h with
  | refl => exact Nat.le_refl _
  | @seq v i ts ht _ ih =>
    have h1 := enc_ge v
    have h2 := Look.length_mem enc ht
    rw [encValue, encTags_eq]
    omega
  | @array v i ts ht _ ih =>
    have h1 := enc_ge v
    have h2 := Look.length_mem enc ht
    rw [encValue, encTags_eq, List.length_append]
    omega
  | @dict k v i es ht _ ih =>
    have h1 := enc_ge v
    have h2 := Look.length_mem (fun e : String × Tag P => Spec.stringTag e.1 ++ enc e.2) ht
    rw [encValue, encSorted_tags, List.length_append, length_sorted]
    simp only [List.length_append] at h2
    omega

theorem value_size_nat {t : Tag P} (hp : PayloadsOk t) (hl : (enc t).length < 2 ^ 64) :
    t.valueSize.toNat = (encValue t).length := by
  letI : Env := bigEnv
  have h1 := enc_ge t
  rw [Tag.valueSize_eq t hp (by omega)]
  exact UInt64.toNat_ofNat_of_lt' (by show _ < 2 ^ 64; omega)

/-- **C122** One test before writing, of the tag itself and not of those inside it, tells whether it can be read again: a tag
of standard types can be read by the standard factory, from whatever bytes, exactly if its `value_size` is at most the
limit. -/
theorem C122_one_test [Env] (hr : MemoryOk) (strict : Bool) (t : Tag P) (hm : MapsOk t)
    (hs : ∀ u, Within u t → StdTag strict u) (hl : (enc t).length < 2 ^ 64) :
    (t.valueSize.toNat ≤ maxValue ↔ ∃ bs t', Factory.fromBytes (Engine.std strict) bs = .ok t' ∧ Same t t') ∧
    (t.valueSize.toNat ≤ maxValue →
      ∃ bs t', t.toBytes = .ok bs ∧ Factory.fromBytes (Engine.std strict) bs = .ok t' ∧ Same t t') := by
  rw [C30_exactly hr strict t hm, value_size_nat (standard_payloads hs) hl]
  have h : (encValue t).length ≤ maxValue → ∀ u, Within u t → StdTag strict u ∧ (encValue u).length ≤ maxValue :=
    fun h u hu => ⟨hs u hu, Nat.le_trans (inner_value_le hu) h⟩
  exact ⟨⟨h, fun h => (h t (.refl _)).2⟩, fun h' => C30_standard hr strict t hm (h h')⟩

/-- **C122** The same for any factory that supports the tag but for the sizes. -/
theorem C122_any_factory [Env] (hr : MemoryOk) (e : Engine P) (t : Tag P) (hm : MapsOk t) (hp : PayloadsOk t)
    (hs : ∀ u, Within u t → (encValue u).length ≤ maxValue → SupportedHere e u) (hl : (enc t).length < 2 ^ 64)
    (h : t.valueSize.toNat ≤ maxValue) :
    ∃ bs t', t.toBytes = .ok bs ∧ Factory.fromBytes e bs = .ok t' ∧ Same t t' := by
  rw [value_size_nat hp hl] at h
  exact C30_round_trip hr e t hm hp fun u hu => hs u hu (Nat.le_trans (inner_value_le hu) h)

theorem too_large_header {t : Tag P} (hi : 16 ≤ t.id.toNat) (hl : (enc t).length < 2 ^ 64) {σ : Type} [Reader σ] (V : View σ)
    {s : σ} {x : Bytes} (hR : V.R s (enc t ++ x)) : ∃ s', Header s t.id (encValue t).length s' ∧ V.R s' (encValue t ++ x) := by
  letI : Env := bigEnv
  have h1 := enc_ge t
  rw [show enc t = wrap t.id (encValue t) from enc_eq t, wrap_explicit (by omega)] at hR
  simp only [List.append_assoc] at hR
  have h2 := (Sim.ilint (V := V)) s _ hR
  rw [ilint_enc] at h2
  obtain ⟨s₁, h3, h4⟩ := h2
  have h5 := (Sim.ilint (V := V)) s₁ _ h4
  rw [ilint_enc_nat (by omega)] at h5
  obtain ⟨s₂, h6, h7⟩ := h5
  exact ⟨s₂, ⟨s₁, h3, .inr ⟨hi, _, h6, (UInt64.toNat_ofNat_of_lt' (by show _ < 2 ^ 64; omega)).symm⟩⟩, h7⟩

/-- **C122** A tag over the limit is written like any other, into any writer that takes the bytes, but no factory reads it:
wherever its bytes are met, from whatever reader and with whatever behind them, the answer is `TagTooLarge`. -/
theorem C122_written_not_read (t : Tag P) (hm : MapsOk t) (hp : PayloadsOk t) (hi : 16 ≤ t.id.toNat)
    (hb : maxValue < (encValue t).length) (hl : (enc t).length < 2 ^ 64) :
    (∀ {ω : Type} [Writer ω] (S : Sink ω) (w : ω) (pre : Bytes), S.W w pre →
      ∃ w', t.serialize w = (.ok (), w') ∧ S.W w' (pre ++ enc t)) ∧
    ∀ (_ : Env) (e : Engine P) {σ : Type} [Reader σ] (V : View σ) (s : σ) (x : Bytes), V.R s (enc t ++ x) →
      (Factory.deserialize e σ s).1 = .err .tagTooLarge := by
  refine ⟨fun S w pre hw => C29_any_sink S t hm hp hl w pre hw, fun _ e σ _ V s x hR => ?_⟩
  obtain ⟨s', h, -⟩ := too_large_header hi hl V hR
  rw [deserialize_too_large e h hb]

theorem readSeq_stop [Env] {e : Engine P} {σ : Type} [Reader σ] {s s' s'' : σ} {us vs : List (Tag P)}
    (h : ReadSeq e s us s') {err : TagErr} (he : (Factory.deserialize e σ s').1 = .err err) (hv : ReadSeq e s vs s'') :
    vs <+: us := by
  induction h generalizing vs with
  | nil s =>
    cases hv with
    | nil => exact List.prefix_refl _
    | cons h1 _ => rw [h1] at he; cases he
  | cons h1 _ ih =>
    cases hv with
    | nil => exact List.nil_prefix
    | cons h2 h3 =>
      rw [h1] at h2
      cases h2
      exact List.cons_prefix_cons.mpr ⟨rfl, ih he h3⟩

/-- **C122** One such tag in a file shuts off everything behind it: reading gives the tags before it, then `TagTooLarge`, and
no number of reads gives more, whatever follows. -/
theorem C122_shuts_off [Env] (hr : MemoryOk) (e : Engine P) (ts : List (Tag P)) (bss : List Bytes)
    (hts : ∀ t ∈ ts, MapsOk t ∧ PayloadsOk t ∧ Supported e t) (hb : ts.map Tag.toBytes = bss.map .ok)
    (t : Tag P) (hi : 16 ≤ t.id.toNat) (ht : maxValue < (encValue t).length) (hl : (enc t).length < 2 ^ 64)
    {σ : Type} [Reader σ] (V : View σ) (s : σ) (more : Bytes) (hR : V.R s (bss.flatten ++ (enc t ++ more))) :
    ∃ us s', ReadSeq e s us s' ∧ us.length = ts.length ∧
      (∀ (i : Nat) (h : i < ts.length) (h' : i < us.length), Same ts[i] us[i]) ∧
      (Factory.deserialize e σ s').1 = .err .tagTooLarge ∧
      ∀ vs s'', ReadSeq e s vs s'' → vs <+: us := by
  obtain ⟨us, s', h1, h2, h3, h4⟩ := C31_lists hr e ts bss hts hb V s _ hR
  obtain ⟨s₂, h, -⟩ := too_large_header hi hl V h4
  have h5 : (Factory.deserialize e σ s').1 = .err .tagTooLarge := by rw [deserialize_too_large e h ht]
  exact ⟨us, s', h1, h2, h3, h5, fun vs s'' hv => readSeq_stop h1 h5 hv⟩

/-- **C122** The scanner is not stopped by it: it finds the tags before it, the tag itself and those behind it. -/
theorem C122_scanner_goes_on {σ : Type} [Reader σ] (m : ArithMode) (V : SkipView σ) (ts us : List (Tag P)) (t : Tag P)
    (hi : 16 ≤ t.id.toNat) (hs : ∀ u ∈ ts ++ us, StdLayout u) (s : σ) (x : Bytes)
    (hlen : ((ts ++ t :: us).flatMap enc).length < 2 ^ 64) (hR : V.R s ((ts ++ t :: us).flatMap enc ++ x)) :
    ∃ s', ScanSeq m (RawTagScanner.new s) (positions 0 (ts ++ t :: us))
      ⟨UInt64.ofNat ((ts ++ t :: us).flatMap enc).length, s'⟩ ∧ V.R s' x := by
  refine C56_scan V _ s x hR (fun u hu => ?_) hlen
  simp only [List.mem_append, List.mem_cons] at hu hs
  rcases hu with h | rfl | h
  · exact hs u (.inl h)
  · exact .inl hi
  · exact hs u (.inr h)

/-- A bytes tag one byte over the limit. -/
def oversize : Tag Empty := .atom (.byteArray (List.replicate (maxValue + 1) 0))

theorem oversize_value : (encValue oversize).length = maxValue + 1 := by
  show (List.replicate (maxValue + 1) (0 : UInt8)).length = _
  exact List.length_replicate

example : MapsOk oversize ∧ PayloadsOk oversize ∧ 16 ≤ oversize.id.toNat ∧ maxValue < (encValue oversize).length ∧
    (∀ u, Within u oversize → StdTag true u) ∧ (enc oversize).length < 2 ^ 64 := by
  letI : Env := bigEnv
  refine ⟨fun u h => by cases h; trivial, (by intro _ _ h; cases h), by decide, by rw [oversize_value]; exact Nat.lt_succ_self _,
    fun u h => ?_, ?_⟩
  · cases h
    exact .inl rfl
  · rw [enc_eq, wrap_explicit (by decide), List.length_append, List.length_append, oversize_value]
    decide +kernel


section
attribute [local instance] bigEnv
/-- Two tags before one that is too large: they are read, and nothing after. -/
example (more : Bytes) : ∃ us s', ReadSeq (Engine.std true : Engine Empty)
      (ByteArrayReader.new ([[10, 5], [17, 1, 97]].flatten ++ (enc oversize ++ more))) us s' ∧ us.length = 2 ∧
    (Factory.deserialize (Engine.std true : Engine Empty) ByteArrayReader s').1 = .err .tagTooLarge := by
  have hl : (enc oversize).length < 2 ^ 64 := by
    rw [enc_eq, wrap_explicit (by decide), List.length_append, List.length_append, oversize_value]
    decide +kernel
  have hs : ∀ t ∈ ([.atom (.ilint 10 5), .atom (.string 17 "a")] : List (Tag Empty)),
      MapsOk t ∧ PayloadsOk t ∧ Supported (Engine.std true) t := fun t ht =>
    ⟨mapsOk_of_B (by revert t; decide +kernel), sample_payloads t, supported_of_B (by revert t; decide +kernel)⟩
  obtain ⟨us, s', h1, h2, -, h4, -⟩ := C122_shuts_off bigEnv_ok (Engine.std true) _ [[10, 5], [17, 1, 97]] hs
    (by decide +kernel) oversize (by decide) (by rw [oversize_value]; exact Nat.lt_succ_self _) hl ByteArrayReader.view.toView _ more
    (ByteArrayReader.view_new _)
  exact ⟨us, s', h1, h2, h4⟩

/-- A scanner goes past it and finds the string behind it. -/
example : ∃ s', ScanSeq .checked (RawTagScanner.new (ByteArrayReader.new
      (([Tag.atom (.ilint 10 5)] ++ oversize :: [Tag.atom (.string 17 "a")]).flatMap enc ++ [])))
    (positions 0 ([Tag.atom (.ilint 10 5)] ++ oversize :: [Tag.atom (.string 17 "a")]))
    ⟨UInt64.ofNat (([Tag.atom (.ilint 10 5)] ++ oversize :: [Tag.atom (.string 17 "a")]).flatMap enc).length, s'⟩ := by
  have hl : (enc oversize).length < 2 ^ 63 := by
    rw [enc_eq, wrap_explicit (by decide), List.length_append, List.length_append, oversize_value]
    decide +kernel
  obtain ⟨s', h, -⟩ := C122_scanner_goes_on .checked ByteArrayReader.view [Tag.atom (.ilint 10 5)]
    [Tag.atom (.string 17 "a")] oversize (by decide) (by
      intro u hu
      simp only [List.cons_append, List.nil_append, List.mem_cons, List.not_mem_nil, or_false] at hu
      rcases hu with rfl | rfl
      · exact .inr (.inl ⟨.inl rfl, 5, by decide +kernel⟩)
      · exact .inl (by decide)) _ [] (by
      have h1 : enc (.atom (.ilint 10 5) : Tag Empty) = [10, 5] := by decide +kernel
      have h2 : enc (.atom (.string 17 "a") : Tag Empty) = [17, 1, 97] := by decide +kernel
      rw [List.flatMap_append, List.flatMap_cons, List.flatMap_cons, List.flatMap_cons, List.flatMap_nil, h1, h2]
      generalize enc oversize = x at hl ⊢
      simp only [List.length_append, List.length_cons, List.length_nil]
      omega) (ByteArrayReader.view_new _)
  exact ⟨s', h⟩

end

end Verif.Props
