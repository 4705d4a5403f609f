import Verif.Go.Sha256
import Verif.Props.PemFiles

/-!
# C116: key prints with SHA-256 itself
-/

namespace Verif.Props.KeyPrintSha

open Verif.Go Verif.Go.Sha256 Verif.Keyprint Verif.Props.KeyPrints

theorem rounds_length (ks ws s : List Nat) (h : s.length = 8) : (rounds ks ws s).length = 8 := by
  induction ks generalizing ws s with
  | nil => rw [rounds]; exact h; simp
  | cons k ks ih =>
    unfold rounds
    split
    · rename_i heq
      cases heq
      simp only [strict_eq]
      apply ih; rfl
    · exact h

theorem addBlock_length (x y : List Nat) (h : x.length = y.length) : (addBlock x y).length = x.length := by
  induction x generalizing y with
  | nil => cases y <;> rfl
  | cons a x ih =>
    cases y with
    | nil => simp at h
    | cons b y => simp [addBlock, strict_eq, ih y (by simpa using h)]

theorem blocks_length (s : List Nat) (p : Bytes) (h : s.length = 8) : (blocks s p).length = 8 := by
  induction hn : p.length using Nat.strongRecOn generalizing s p with
  | _ n ih =>
    subst hn
    unfold blocks
    split
    · exact h
    · refine ih _ (by simp; omega) _ _ ?_ rfl
      rw [addBlock_length _ _ (by rw [rounds_length _ _ _ h, h]), h]

theorem sum256_length (b : Bytes) : (sum256 b).length = 32 := by
  unfold sum256
  have : ∀ l : List Nat, (l.flatMap wordBytes).length = 4 * l.length := by
    intro l
    induction l with
    | nil => rfl
    | cons x l ih => simp [List.flatMap_cons, wordBytes, ih]; omega
  rw [this, blocks_length _ _ rfl]

/-- **C116.** Every key print has 59 characters: `SHA256/` and 52 of the base32 alphabet. -/
theorem print_form (b : Bytes) : ∃ t, fromBytes sum256 b = b!"SHA256/" ++ t ∧ t.length = 52 ∧ ∀ c ∈ t, c ∈ Spec.Base32.alphabet :=
  print_length sum256 b (sum256_length b)

/-- **C116.** A peer passes the check with the key print of a certificate exactly if it has shown that certificate, or one with the same SHA-256. -/
theorem verify_sha256 (peer : List Bytes) (cert : Bytes) :
    (verifyKeyPrint sum256 peer (fromBytes sum256 cert)).2 = none ↔ ∃ c ∈ peer, sum256 c = sum256 cert := by
  rw [(verify_exact sum256 peer _).1]
  constructor
  · rintro ⟨c, hc, h⟩
    rw [← fromBytes_eq] at h
    exact ⟨c, hc, ((print_injective sum256 _ _).mp h).symm⟩
  · rintro ⟨c, hc, h⟩
    exact ⟨c, hc, by rw [← fromBytes_eq]; exact (print_injective sum256 _ _).mpr h.symm⟩

example : fromBytes sum256 b!"abc" = b!"SHA256/XJ4BNP4PAHH6UQKBIDPF3LRCEOYAGYNDSYLXVHFUCD7WD4QACWWQ" := by decide +kernel

end Verif.Props.KeyPrintSha
