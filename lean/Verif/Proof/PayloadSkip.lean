import Verif.Model.PayloadSkip
/-!
# Payload code that skips
-/
namespace Verif

theorem onReader_bind_apply {P σ α β : Type} (x : Act IoErr σ α) (g : α → Act TagErr (P × σ) β) (p : P) (s : σ) :
    (onReader (tagIo x) >>= g) (p, s) =
      match x s with
      | (.ok a, s') => g a (p, s')
      | (.err e, s') => (.err (.ioError e), (p, s'))
      | (.panic, s') => (.panic, (p, s'))
      | (.diverge, s') => (.diverge, (p, s')) := by
  have h : (onReader (tagIo x) : Act TagErr (P × σ) α) (p, s) = ((x s).1.mapErr .ioError, (p, (x s).2)) := rfl
  rcases hx : x s with ⟨r, s'⟩
  rw [hx] at h
  cases r with
  | ok a => exact Act.bind_ok h
  | err e => exact Act.bind_err h
  | panic => exact Act.bind_panic h
  | diverge => rw [Act.bind_apply, h]; rfl

theorem RProg.run_skip {P σ : Type} [Reader σ] (f : FactoryDeser P) (k : RProg P) (n : Nat) : ∀ q : P × Limited σ,
    (RProg.skip n k).run f q = (onReader (tagIo (Reader.skip n)) >>= fun _ => k.run f) q := by
  induction n using Nat.strongRecOn with
  | _ n ih =>
    rintro ⟨p, l⟩
    rw [onReader_bind_apply]
    rw [show Reader.skip n l = defaultSkip Limited.readAll n l from rfl, RProg.skip, defaultSkip]
    by_cases h : n = 0
    · rw [dif_pos h, dif_pos h]; rfl
    · rw [dif_neg h, dif_neg h, Act.bind_apply]
      show (onReader (tagIo (Reader.readAll (min n 512))) >>= fun _ => (RProg.skip (n - min n 512) k).run f) (p, l) = _
      rw [onReader_bind_apply]
      rw [show Reader.readAll (min n 512) l = Limited.readAll (min n 512) l from rfl]
      rcases Limited.readAll (min n 512) l with ⟨r, s'⟩
      cases r with
      | ok bs =>
        show (RProg.skip (n - min n 512) k).run f (p, s') = _
        rw [ih (n - min n 512) (by omega), onReader_bind_apply]
        rfl
      | err e => rfl
      | panic => rfl
      | diverge => rfl

theorem RProg.run_skipU64 {P σ : Type} [Reader σ] (f : FactoryDeser P) (k : RProg P) (n : UInt64) (q : P × Limited σ) :
    (RProg.skipU64 n k).run f q = (onReader (tagIo (Reader.skipU64 n)) >>= fun _ => k.run f) q := by
  obtain ⟨p, l⟩ := q
  rw [RProg.skipU64, RProg.run_skip, onReader_bind_apply, onReader_bind_apply]
  have h : defaultSkipU64 (defaultSkip Limited.readAll) n l = defaultSkip Limited.readAll n.toNat l := by
    unfold defaultSkipU64
    rw [defaultSkipU64Loop]
    by_cases h : n.toNat = 0
    · rw [dif_pos h, h, defaultSkip, dif_pos rfl]
    · have hm : min n.toNat (max usizeMax64 1) = n.toNat := by
        have := n.toNat_lt
        have : usizeMax64 = 2 ^ 64 - 1 := rfl
        omega
      rw [dif_neg h, hm, Nat.sub_self, Act.bind_apply]
      have h0 : ∀ s' : Limited σ, defaultSkipU64Loop usizeMax64 (defaultSkip Limited.readAll) 0 s' = (.ok (), s') := by
        intro s'; rw [defaultSkipU64Loop, dif_pos rfl]; rfl
      rcases defaultSkip Limited.readAll n.toNat l with ⟨r, s'⟩
      cases r with
      | ok u => exact h0 s'
      | err e => rfl
      | panic => rfl
      | diverge => rfl
  rw [show Reader.skip n.toNat l = defaultSkip Limited.readAll n.toNat l from rfl,
    show Reader.skipU64 n l = defaultSkipU64 (defaultSkip Limited.readAll) n l from rfl, h]

end Verif
