import Verif.Go.Numbers
import Verif.Go.Slices

/-!
# `nmdc/utils.go`: command names, trimming, numbers, fixed-arity splitting
-/

namespace Verif.Nmdc

open Verif.Go Verif.Spec

/-- `isASCII`, `nmdc/utils.go:10-30`. -/
def isASCII (p : Bytes) : Bool :=
  p.all (fun b =>
    if b = c!"/" || b = c!"-" || b = c!"_" || b = c!"." || b = c!":" then true
    else if b < c!"0" || b > c!"z" then false
    else if b ≥ c!"a" && b ≤ c!"z" then true
    else if b ≥ c!"A" && b ≤ c!"Z" then true
    else if b ≥ c!"0" && b ≤ c!"9" then true
    else false)

/-- First loop of `trimSpace`, `nmdc/utils.go:33-38`: an all-space string is left alone. -/
def trimSpaceL (s : Bytes) : Bytes :=
  match s.dropWhile (· = c!" ") with
  | [] => s
  | t => t

/-- Second loop of `trimSpace`, `nmdc/utils.go:39-44`. -/
def trimSpaceR (s : Bytes) : Bytes :=
  match s.reverse.dropWhile (· = c!" ") with
  | [] => s
  | t => t.reverse

/-- `trimSpace`, `nmdc/utils.go:32-46`. -/
def trimSpace (s : Bytes) : Bytes := trimSpaceR (trimSpaceL s)

/-- Digit loop of the fast path, `nmdc/utils.go:68-75`; `ch - '0'` wraps, at most nine digits so `n` does not. -/
def atoiLoop : Bytes → Nat → Res Nat
  | [], n => .ok n
  | c :: s, n => if c - c!"0" > 9 then .err errSyntax else atoiLoop s (n * 10 + (c - c!"0").toNat)

/-- `atoiTrim` after trimming, `nmdc/utils.go:55-81`. -/
def atoiBody (s : Bytes) : Res Int :=
  match s with
  | [] => .err errSyntax
  | c :: t =>
    if s.length < 10 then
      if c = c!"-" ∨ c = c!"+" then
        if t.length < 1 then .err errSyntax
        else do
          let n ← atoiLoop t 0
          .ok (if c = c!"-" then -(n : Int) else n)
      else do
        let n ← atoiLoop (c :: t) 0
        .ok (n : Int)
    else parseInt s 64

/-- `atoiTrim`, `nmdc/utils.go:48-82`. -/
def atoiTrim (s : Bytes) : Res Int :=
  if s.length = 0 then .err errSyntax else atoiBody (trimSpace s)

/-- Digit loop of `parseUin64Trim`, `nmdc/utils.go:94-112`; the sum is taken in 64 bits. -/
def parseUin64Loop : Bytes → Nat → Res Nat
  | [], n => .ok n
  | c :: s, n =>
    if c < c!"0" ∨ c > c!"9" then .err errSyntax
    else if n ≥ maxU64 / 10 + 1 then .err errSyntax
    else
      let n10 := n * 10
      let n1 := (n10 + (c - c!"0").toNat) % (maxU64 + 1)
      if n1 < n10 ∨ n1 > maxU64 then .err errSyntax else parseUin64Loop s n1

/-- `parseUin64Trim`, `nmdc/utils.go:84-114`. -/
def parseUin64Trim (s : Bytes) : Res Nat :=
  if s.length = 0 then .err errSyntax
  else
    let s := trimSpace s
    if s.length = 0 then .err errSyntax else parseUin64Loop s 0

/-- `splitN`, `nmdc/utils.go:116-129`: exactly `n` fields. -/
def splitN (p : Bytes) (sep : Byte) (n : Nat) : Option (List Bytes) :=
  if p.count sep + 1 = n then some (split p sep) else none

/-! ## Lemmas -/

theorem trimSpaceL_spec {s : Bytes} (h : ∃ b ∈ s, b ≠ c!" ") :
    ∃ i t, s = List.replicate i c!" " ++ t ∧ trimSpaceL s = t ∧ ∃ x u, t = x :: u ∧ x ≠ c!" " := by
  induction s with
  | nil => simp at h
  | cons b s ih =>
    by_cases hb : b = c!" "
    · subst hb
      have h' : ∃ b ∈ s, b ≠ c!" " := by
        obtain ⟨y, hy, hne⟩ := h
        simp only [List.mem_cons] at hy
        rcases hy with rfl | hy
        · exact absurd rfl hne
        · exact ⟨y, hy, hne⟩
      obtain ⟨i, t, h1, h2, x, u, h3, h4⟩ := ih h'
      refine ⟨i + 1, t, by rw [h1]; rfl, ?_, x, u, h3, h4⟩
      unfold trimSpaceL at h2 ⊢
      simp only [List.dropWhile_cons, decide_true, if_true]
      cases hd : s.dropWhile (· = c!" ") with
      | nil =>
        rw [dropWhile_nil] at hd
        obtain ⟨y, hy, hne⟩ := h'
        exact absurd (of_decide_eq_true (hd y hy)) hne
      | cons y v => rw [hd] at h2; exact h2
    · exact ⟨0, b :: s, rfl, by simp [trimSpaceL, hb], b, s, rfl, hb⟩

theorem trimSpaceR_eq (s : Bytes) : trimSpaceR s = (trimSpaceL s.reverse).reverse := by
  unfold trimSpaceR trimSpaceL
  split <;> rename_i h
  · simp
  · rfl

theorem trimSpaceR_spec {s : Bytes} (h : ∃ b ∈ s, b ≠ c!" ") :
    ∃ j t, s = t ++ List.replicate j c!" " ∧ trimSpaceR s = t ∧ ∃ x u, t = u ++ [x] ∧ x ≠ c!" " := by
  obtain ⟨i, t, h1, h2, x, u, h3, h4⟩ := trimSpaceL_spec (s := s.reverse) (by simpa using h)
  refine ⟨i, t.reverse, ?_, ?_, x, u.reverse, ?_, h4⟩
  · have := congrArg List.reverse h1
    simpa using this
  · rw [trimSpaceR_eq, h2]
  · rw [h3]; simp

/-- Trimming removes exactly the padding of a text that neither starts nor ends with a space. -/
theorem trimSpace_spec {s : Bytes} (h : ∃ b ∈ s, b ≠ c!" ") :
    Padded s (trimSpace s) ∧ (∃ x u, trimSpace s = x :: u ∧ x ≠ c!" ") ∧ ∃ y v, trimSpace s = v ++ [y] ∧ y ≠ c!" " := by
  obtain ⟨i, t, h1, h2, x, u, h3, h4⟩ := trimSpaceL_spec h
  have ht : ∃ b ∈ t, b ≠ c!" " := ⟨x, by simp [h3], h4⟩
  obtain ⟨j, r, k1, k2, y, v, k3, k4⟩ := trimSpaceR_spec ht
  have hr : trimSpace s = r := by rw [trimSpace, h2, k2]
  rw [hr]
  refine ⟨⟨i, j, by rw [h1, k1]; simp⟩, ?_, y, v, k3, k4⟩
  cases r with
  | nil => simp at k3
  | cons z w =>
    refine ⟨z, w, rfl, ?_⟩
    rw [h3] at k1
    simp at k1
    rw [← k1.1]; exact h4

theorem trimSpace_allSpace {s : Bytes} (h : ∀ b ∈ s, b = c!" ") : trimSpace s = s := by
  have h1 : trimSpaceL s = s := by
    unfold trimSpaceL
    have : s.dropWhile (· = c!" ") = [] := by
      rw [dropWhile_nil]; intro b hb; simp [h b hb]
    simp [this]
  rw [trimSpace, h1, trimSpaceR_eq]
  unfold trimSpaceL
  have : s.reverse.dropWhile (· = c!" ") = [] := by
    rw [dropWhile_nil]; intro b hb; simp [h b (by simpa using hb)]
  simp [this]

theorem dropWhile_replicate_space (i : Nat) (t : Bytes) :
    (List.replicate i c!" " ++ t).dropWhile (· = c!" ") = t.dropWhile (· = c!" ") := by
  induction i with
  | zero => simp
  | succ i ih => simp [List.replicate_succ, ih]

/-- Padding is removed. -/
theorem trimSpace_padded {s t : Bytes} (h : Padded s t) (hne : t ≠ []) (h1 : t.head? ≠ some c!" ")
    (h2 : t.getLast? ≠ some c!" ") : trimSpace s = t := by
  obtain ⟨i, j, rfl⟩ := h
  have a : trimSpaceL (List.replicate i c!" " ++ t ++ List.replicate j c!" ") = t ++ List.replicate j c!" " := by
    unfold trimSpaceL
    rw [List.append_assoc, dropWhile_replicate_space]
    cases t with
    | nil => simp at hne
    | cons x t =>
      have : x ≠ c!" " := by simpa using h1
      simp [this]
  rw [trimSpace, a, trimSpaceR_eq]
  have b : (t ++ List.replicate j c!" ").reverse = List.replicate j c!" " ++ t.reverse := by simp
  rw [b]
  unfold trimSpaceL
  rw [dropWhile_replicate_space]
  rcases List.eq_nil_or_concat t with rfl | ⟨u, x, rfl⟩
  · simp at hne
  · have : x ≠ c!" " := by simpa using h2
    simp [this]

theorem sub_gt_nine {c : Byte} : ¬ (c - c!"0" > 9) ↔ IsDigit c := by
  revert c
  apply forall_byte
  decide +kernel

theorem atoiLoop_ok {s : Bytes} {n k : Nat} :
    atoiLoop s n = .ok k ↔ (∀ b ∈ s, IsDigit b) ∧ s.foldl (fun n (b : Byte) => 10 * n + (b.toNat - 48)) n = k := by
  induction s generalizing n with
  | nil => simp [atoiLoop]
  | cons c s ih =>
    simp only [atoiLoop]
    by_cases h : c - c!"0" > 9
    · rw [if_pos h]
      simp only [reduceCtorEq, false_iff, not_and]
      intro h'
      exact absurd h (sub_gt_nine.mpr (h' c (by simp)))
    · rw [if_neg h, ih]
      have hd := sub_gt_nine.mp h
      rw [digit_sub hd]
      simp only [List.mem_cons, forall_eq_or_imp, hd, true_and, List.foldl_cons, Nat.mul_comm]

theorem atoiLoop_ne_panic (s : Bytes) (n : Nat) : atoiLoop s n ≠ .panic := by
  induction s generalizing n with
  | nil => simp [atoiLoop]
  | cons c s ih =>
    simp only [atoiLoop]
    split
    · simp
    · exact ih _

theorem value_lt {s : Bytes} (h : ∀ b ∈ s, IsDigit b) : value s < 10 ^ s.length := by
  induction s with
  | nil => simp [value]
  | cons b s ih =>
    rw [value_cons, List.length_cons, Nat.pow_succ]
    have h1 := ih (fun x hx => h x (by simp [hx]))
    have h2 := digit_le (h b (by simp))
    have h3 : (b.toNat - 48) * 10 ^ s.length ≤ 9 * 10 ^ s.length := Nat.mul_le_mul_right _ h2
    omega

theorem signed_ne_nil {s : Bytes} {k : Int} (h : SignedNumeral s k) : s ≠ [] := by
  cases h with
  | plain h => exact h.1
  | plus h => simp
  | minus h => simp

theorem signed_no_space {s : Bytes} {k : Int} (h : SignedNumeral s k) : c!" " ∉ s := by
  cases h with
  | plain h => intro h'; exact not_digit_space (h.2 _ h')
  | plus h => intro h'; simp only [List.mem_cons] at h'; rcases h' with h' | h'; exact absurd h' (by decide); exact not_digit_space (h.2 _ h')
  | minus h => intro h'; simp only [List.mem_cons] at h'; rcases h' with h' | h'; exact absurd h' (by decide); exact not_digit_space (h.2 _ h')

theorem head?_ne_of_not_mem {s : Bytes} {c : Byte} (h : c ∉ s) : s.head? ≠ some c :=
  fun h' => h (List.mem_of_head? h')

theorem getLast?_ne_of_not_mem {s : Bytes} {c : Byte} (h : c ∉ s) : s.getLast? ≠ some c :=
  fun h' => h (List.mem_of_getLast? h')

/-- The fast path, for at most nine bytes. -/
theorem atoiFast {c : Byte} {t : Bytes} {k : Int} (hl : (c :: t).length < 10) :
    ((if c = c!"-" ∨ c = c!"+" then
          if t.length < 1 then .err errSyntax
          else do
            let n ← atoiLoop t 0
            .ok (if c = c!"-" then -(n : Int) else n)
        else do
          let n ← atoiLoop (c :: t) 0
          .ok (n : Int)) = Res.ok k) ↔ SignedNumeral (c :: t) k := by
  have key : ∀ (d : Bytes) (f : Nat → Int), ((atoiLoop d 0 >>= fun n => .ok (f n)) = Res.ok k) ↔
      (∀ b ∈ d, IsDigit b) ∧ k = f (value d) := by
    intro d f
    rw [Res.bind_eq_ok]
    simp only [atoiLoop_ok, Res.ok.injEq, value]
    exact ⟨fun ⟨a, ⟨h1, h2⟩, h3⟩ => ⟨h1, by rw [h2, h3]⟩, fun ⟨h1, h2⟩ => ⟨_, ⟨h1, rfl⟩, h2.symm⟩⟩
  by_cases hs : c = c!"-" ∨ c = c!"+"
  · rw [if_pos hs]
    cases t with
    | nil =>
      simp only [List.length_nil, Nat.lt_add_one, if_true, reduceCtorEq, false_iff]
      intro h
      cases h with
      | plain h =>
        rcases hs with rfl | rfl
        · exact not_digit_minus (h.2 _ (by simp))
        · exact not_digit_plus (h.2 _ (by simp))
      | plus h => exact h.1 rfl
      | minus h => exact h.1 rfl
    | cons d t =>
      rw [if_neg (by simp), key]
      rcases hs with rfl | rfl
      · rw [if_pos rfl]
        constructor
        · rintro ⟨h1, rfl⟩; exact .minus ⟨by simp, h1⟩
        · intro h
          cases h with
          | plain h => exact absurd (h.2 _ (by simp)) not_digit_minus
          | minus h => exact ⟨h.2, rfl⟩
      · rw [if_neg (by decide)]
        constructor
        · rintro ⟨h1, rfl⟩; exact .plus ⟨by simp, h1⟩
        · intro h
          cases h with
          | plain h => exact absurd (h.2 _ (by simp)) not_digit_plus
          | plus h => exact ⟨h.2, rfl⟩
  · rw [if_neg hs, key]
    simp only [not_or] at hs
    constructor
    · rintro ⟨h1, rfl⟩; exact .plain ⟨by simp, h1⟩
    · intro h
      cases h with
      | plain h => exact ⟨h.2, rfl⟩
      | plus h => exact absurd rfl hs.2
      | minus h => exact absurd rfl hs.1

/-- A numeral of at most nine bytes fits. -/
theorem signed_short {s : Bytes} {k : Int} (h : SignedNumeral s k) (hl : s.length < 10) : -(2 ^ 63 : Int) ≤ k ∧ k < 2 ^ 63 := by
  have hv : ∀ d : Bytes, (∀ b ∈ d, IsDigit b) → d.length < 10 → value d < 10 ^ 9 := by
    intro d hd hdl
    exact Nat.lt_of_lt_of_le (value_lt hd) (Nat.pow_le_pow_right (by omega) (by omega))
  cases h with
  | plain h => have := hv _ h.2 hl; omega
  | plus h => simp at hl; have := hv _ h.2 (by omega); omega
  | minus h => simp at hl; have := hv _ h.2 (by omega); omega

/-- `parseUin64Loop` is the loop of `strconv.ParseUint` with other error values. -/
theorem parseUin64Loop_eq (s : Bytes) (n k : Nat) : parseUin64Loop s n = .ok k ↔ parseUintLoop maxU64 s n = .ok k := by
  induction s generalizing n with
  | nil => rfl
  | cons c s ih =>
    simp only [parseUin64Loop, parseUintLoop]
    split
    · rfl
    · split
      · simp
      · split
        · simp
        · exact ih _

theorem parseUin64Loop_ne_panic (s : Bytes) (n : Nat) : parseUin64Loop s n ≠ .panic := by
  induction s generalizing n with
  | nil => simp [parseUin64Loop]
  | cons c s ih =>
    simp only [parseUin64Loop]
    split
    · simp
    · split
      · simp
      · split
        · simp
        · exact ih _

theorem atoiTrim_ne_panic (s : Bytes) : atoiTrim s ≠ .panic := by
  unfold atoiTrim
  split
  · simp
  · unfold atoiBody
    split
    · simp
    · split
      · split
        · split
          · simp
          · exact Res.bind_ne_panic (atoiLoop_ne_panic _ _) (by simp)
        · exact Res.bind_ne_panic (atoiLoop_ne_panic _ _) (by simp)
      · exact parseInt_ne_panic _ _

theorem parseUin64Trim_ne_panic (s : Bytes) : parseUin64Trim s ≠ .panic := by
  unfold parseUin64Trim
  split
  · simp
  · simp only
    split
    · simp
    · exact parseUin64Loop_ne_panic _ _

theorem splitN_some {p : Bytes} {sep : Byte} {n : Nat} {l : List Bytes} (h : splitN p sep n = some l) : l = split p sep := by
  unfold splitN at h
  split at h <;> simp at h
  exact h.symm

theorem count_add_one_split (p : Bytes) (sep : Byte) : (split p sep).length = p.count sep + 1 := by
  induction p with
  | nil => simp [split]
  | cons b p ih =>
    simp only [split]
    split
    · rename_i h; subst h; simp [ih]
    · rename_i h
      rw [List.count_cons_of_ne h]
      cases hp : split p sep with
      | nil => exact absurd hp (split_ne_nil p sep)
      | cons q ps => rw [hp] at ih; simpa using ih

/-- `splitN` succeeds exactly when there are `n` fields. -/
theorem splitN_eq {p : Bytes} {sep : Byte} {n : Nat} :
    splitN p sep n = if (split p sep).length = n then some (split p sep) else none := by
  unfold splitN
  rw [count_add_one_split]

end Verif.Nmdc
