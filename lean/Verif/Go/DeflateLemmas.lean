import Verif.Go.HuffmanLemmas

/-!
# Lemmas about compression and decompression
-/

namespace Verif.Go.Deflate

open Verif.Go.Inflate

/-- `n` bits later. -/
def adv (s : St) (n : Nat) : St := { s with pos := s.pos + n }

theorem bits_append (s : St) (a b : List Bool) : s.bits (a ++ b) = (s.bits a).bits b := by
  simp [St.bits]

theorem bits_cons (s : St) (a : Bool) (b : List Bool) : s.bits (a :: b) = (s.bit a).bits b := rfl

theorem bits_nil (s : St) : s.bits [] = s := rfl

/-! ### The mode is replaced -/

theorem to_to (s : St) (m m' : Mode) : (s.to m).to m' = s.to m' := rfl
theorem toSum_to (s : St) (m : Mode) : (s.to m).toSum = s.toSum := rfl
theorem endBlock_to (s : St) (m : Mode) : (s.to m).endBlock = s.endBlock := rfl
theorem toStored_to (s : St) (m : Mode) : (s.to m).toStored = s.toStored := rfl
theorem toWord_to (s : St) (m : Mode) (b k) : (s.to m).toWord b k = s.toWord b k := rfl
theorem toLit_to (s : St) (m : Mode) (b k) : (s.to m).toLit b k = s.toLit b k := rfl
theorem toDist_to (s : St) (m : Mode) (a b c) : (s.to m).toDist a b c = s.toDist a b c := rfl
theorem toLens_to (s : St) (m : Mode) (a b c d) : (s.to m).toLens a b c d = s.toLens a b c d := rfl
theorem toBook_to (s : St) (m : Mode) (a b c) : (s.to m).toBook a b c = s.toBook a b c := by
  unfold St.toBook
  generalize mkBook (clens c) = x
  cases x <;> rfl
theorem ref_to (s : St) (m : Mode) (a b c d) : (s.to m).ref a b c d = s.ref a b c d := rfl
theorem gotSym_to (s : St) (m : Mode) (b : Book) (v : Nat) (k : Sym) : (s.to m).gotSym b v k = s.gotSym b v k := by
  cases k <;> rfl
theorem gotNum_to (s : St) (m : Mode) (v : Nat) (k : Num) : (s.to m).gotNum v k = s.gotNum v k := by
  have hf : ∀ f, (s.to m).withFinal f = (s.withFinal f).to m := fun _ => rfl
  have hh : ∀ h, (s.to m).withHist h = (s.withHist h).to m := fun _ => rfl
  have h0 : (s.to m).hist = s.hist := rfl
  cases k <;>
    simp only [St.gotNum, hf, hh, h0, to_to, toStored_to, toLit_to, endBlock_to, toLens_to, ref_to, toDist_to, toBook_to]

theorem adv_to (s : St) (m : Mode) (n : Nat) : adv (s.to m) n = (adv s n).to m := rfl
theorem adv_adv (s : St) (m n : Nat) : adv (adv s m) n = adv s (m + n) := by simp [adv, Nat.add_assoc]

/-! ### Numbers and words -/

theorem bits_num (n : Nat) : ∀ (s : St) (w v x : Nat) (k : Num), x < 2 ^ (n + 1) → s.mode = .num (n + 1) w v k →
    s.bits (numBits (n + 1) x) = (adv s (n + 1)).gotNum (v + w * x) k := by
  induction n with
  | zero =>
    intro s w v x k hx hm
    have : x = 0 ∨ x = 1 := by omega
    rcases this with rfl | rfl <;> simp [numBits, St.bits, St.bit, hm, adv]
  | succ n ih =>
    intro s w v x k hx hm
    rw [numBits, bits_cons]
    have h1 : s.bit (x % 2 == 1) = (adv s 1).to (.num (n + 1) (2 * w) (v + if (x % 2 == 1) = true then w else 0) k) := by
      simp [St.bit, hm, adv]
    rw [h1, ih _ (2 * w) (v + if (x % 2 == 1) = true then w else 0) (x / 2) k (by rw [Nat.pow_succ] at hx; omega) rfl,
      adv_to, gotNum_to, adv_adv]
    congr 1
    · congr 1; omega
    · have h2 := Nat.div_add_mod x 2
      have : x % 2 = 0 ∨ x % 2 = 1 := by omega
      rcases this with h | h
      · simp [h]
        have : x = 2 * (x / 2) := by omega
        conv => rhs; rw [this]
        simp [Nat.mul_comm, Nat.mul_left_comm]
      · simp [h]
        have : x = 2 * (x / 2) + 1 := by omega
        conv => rhs; rw [this]
        rw [Nat.mul_add, Nat.mul_one]
        simp [Nat.mul_comm, Nat.mul_left_comm]
        omega

theorem bits_walk (b : Book) (k : Sym) (v : Nat) : ∀ (bs : List Bool) (key : Nat) (s : St), walk b key bs = some v →
    s.mode = .word b key k → s.bits bs = (adv s bs.length).gotSym b v k := by
  intro bs
  induction bs with
  | nil => intro key s h; simp [walk] at h
  | cons c cs ih =>
    intro key s h hm
    rw [bits_cons]
    unfold walk at h
    generalize hk : (2 * key + if c then 1 else 0) = key' at h
    cases hv : b.find key' with
    | some v' =>
      rw [hv] at h
      dsimp only at h
      cases cs with
      | nil =>
        simp at h
        subst h
        simp only [St.bit, hm, hk, hv, bits_nil, adv, List.length]
      | cons _ _ => simp at h
    | none =>
      rw [hv] at h
      dsimp only at h
      cases hst : b.stuck key' with
      | true => rw [hst] at h; simp at h
      | false =>
        rw [hst, if_neg (by simp)] at h
        have h1 : s.bit c = (adv s 1).to (.word b key' k) := by
          simp only [St.bit, hm, hk, hv, hst, adv]
          rfl
        rw [h1, ih _ _ h rfl, adv_to, gotSym_to, adv_adv, List.length_cons, Nat.add_comm]

end Verif.Go.Deflate
