import Verif.Props.NmdcRefs

/-! # C84: numbers in character references that are not closed -/

namespace Verif.Props.NmdcRefs

open Verif.Go Verif.Nmdc Verif.Spec

private theorem open_eq {hex : Bool} {d : Byte → Nat} {ds : Bytes} (hd : ∀ b ∈ ds, refDigit hex b = some (d b : Int)) {rest : Bytes}
    (hr : ∀ c, rest.head? = some c → refDigit hex c = none ∧ c ≠ c!";") (n i : Nat)
    (hv : ds.foldl (fun n b => (if hex then 16 else 10) * n + d b) n < 2147483648) :
    refLoop hex (ds ++ rest) n i = (((ds.foldl (fun n b => (if hex then 16 else 10) * n + d b) n : Nat) : Int), i + ds.length) := by
  induction ds generalizing n i with
  | nil =>
    cases rest with
    | nil => simp [refLoop]
    | cons c rest =>
      have := hr c rfl
      simp [refLoop, this.1, this.2]
  | cons c ds ih =>
    simp only [List.cons_append, refLoop, hd c (by simp), List.foldl_cons] at hv ⊢
    have hle := fold_le (if hex then 16 else 10) d (by split <;> omega) ds ((if hex then 16 else 10) * n + d c)
    have e : wrap32 ((if hex then 16 else 10) * (n : Int) + (d c : Int)) = (((if hex then 16 else 10) * n + d c : Nat) : Int) := by
      rw [wrap32_id]
      · cases hex <;> simp
      · cases hex <;> simp <;> omega
      · cases hex <;> simp at hle hv ⊢ <;> omega
    rw [e, ih (fun b hb => hd b (by simp [hb])) ((if hex then 16 else 10) * n + d c) (i + 1) hv, List.length_cons]
    congr 1; omega

private theorem not_digit : ∀ c : Byte, ¬ IsDigit c → refDigit false c = none := by
  apply forall_byte; decide +kernel

private theorem not_hex : ∀ c : Byte, ¬ IsHexDigit c → refDigit true c = none := by
  apply forall_byte; decide +kernel

section

variable [HtmlEntities]

/-- **C84.** A decimal number of two digits or more is a reference also without a semicolon: before anything that is not a digit, and at the end. -/
theorem decimal_open {ds : Bytes} (h : IsNumeral ds) (h2 : 2 ≤ ds.length) (hv : value ds < 2147483648) {rest : Bytes}
    (hr : ∀ c, rest.head? = some c → ¬ IsDigit c ∧ c ≠ c!";") :
    htmlUnescape (b!"&#" ++ ds ++ rest) = utf8 (refChar (value ds)) ++ htmlUnescape rest := by
  obtain ⟨c, ds, rfl⟩ := List.exists_cons_of_ne_nil h.1
  have hc : c ≠ c!"x" ∧ c ≠ c!"X" := by
    have := h.2 c (by simp)
    constructor <;> (rintro rfl; revert this; decide)
  have hl := open_eq (hex := false) (d := fun b => b.toNat - 48) (fun b hb => refDigit_dec b (h.2 b hb))
    (fun c hc => ⟨not_digit c (hr c hc).1, (hr c hc).2⟩) 0 2 (by simpa [value] using hv)
  have hl' : refLoop false (c :: (ds ++ rest)) 0 2 = (((value (c :: ds) : Nat) : Int), 2 + (ds.length + 1)) := by
    simpa [value] using hl
  have := htmlUnescape_entity (e := c!"#" :: (c :: ds)) (v := utf8 (refChar (value (c :: ds)))) (s := rest) (by
    rw [← refRune_eq]
    simp only [List.cons_append, unescapeEntity, if_true, List.length_cons, List.length_append,
      List.head?_cons, Option.some.injEq, hc.1, hc.2, or_self, decide_false, if_false, hl']
    simp only [List.length_cons] at h2
    rw [if_neg (by omega), if_neg (by simp; omega)]
    congr 1; omega)
  simpa using this

/-- **C84.** A hexadecimal number is a reference also without a semicolon. -/
theorem hex_open {x : Byte} (hx : x = c!"x" ∨ x = c!"X") {ds : Bytes} (hne : ds ≠ []) (h : ∀ b ∈ ds, IsHexDigit b)
    (hv : hexValue ds < 2147483648) {rest : Bytes} (hr : ∀ c, rest.head? = some c → ¬ IsHexDigit c ∧ c ≠ c!";") :
    htmlUnescape (b!"&#" ++ x :: ds ++ rest) = utf8 (refChar (hexValue ds)) ++ htmlUnescape rest := by
  have hn : 0 < ds.length := List.length_pos_iff.mpr hne
  have hl := open_eq (hex := true) (d := hexDigit) (fun b hb => refDigit_hex b (h b hb))
    (fun c hc => ⟨not_hex c (hr c hc).1, (hr c hc).2⟩) 0 3 (by simpa [hexValue] using hv)
  have hl' : refLoop true (ds ++ rest) 0 3 = (((hexValue ds : Nat) : Int), 3 + ds.length) := by
    simpa [hexValue] using hl
  have := htmlUnescape_entity (e := c!"#" :: x :: ds) (v := utf8 (refChar (hexValue ds))) (s := rest) (by
    rw [← refRune_eq]
    have hb : (some x = some c!"x" ∨ some x = some c!"X") := by simpa using hx
    simp only [List.cons_append, unescapeEntity, if_true, List.length_cons, List.length_append,
      List.head?_cons, hb, decide_true, if_true, List.drop_succ_cons, List.drop_zero, hl']
    rw [if_neg (by omega), if_neg (by omega)]
    congr 1; omega)
  simpa using this

private theorem kept {s : Bytes} (h : unescapeEntity (b!"&#" ++ s) = (b!"&", 1)) : htmlUnescape (b!"&#" ++ s) = b!"&#" ++ htmlUnescape s := by
  have := htmlUnescape_entity (e := []) (v := b!"&") (s := c!"#" :: s) (by simpa using h)
  have h2 := htmlUnescape_cons (b := c!"#") (by decide) s
  simp only [List.cons_append, List.nil_append] at this ⊢
  rw [this, h2]

/-- **C84.** One decimal digit without a semicolon stands for itself. -/
theorem decimal_single {d : Byte} (hd : IsDigit d) {rest : Bytes} (hr : ∀ c, rest.head? = some c → ¬ IsDigit c ∧ c ≠ c!";") :
    htmlUnescape (b!"&#" ++ d :: rest) = b!"&#" ++ d :: htmlUnescape rest := by
  have hc : d ≠ c!"x" ∧ d ≠ c!"X" ∧ d ≠ c!"&" := by
    refine ⟨?_, ?_, ?_⟩ <;> (rintro rfl; revert hd; decide)
  have hv : value [d] < 2147483648 := by
    simp only [value, List.foldl_cons, List.foldl_nil]
    have := d.toNat_lt
    omega
  have hl := open_eq (hex := false) (ds := [d]) (d := fun b => b.toNat - 48) (fun b hb => refDigit_dec b (by
      rw [List.mem_singleton.1 hb]; exact hd))
    (fun c hc => ⟨not_digit c (hr c hc).1, (hr c hc).2⟩) 0 2 (by simpa [value] using hv)
  have hl' : refLoop false (d :: rest) 0 2 = (((value [d] : Nat) : Int), 3) := by simpa [value] using hl
  rw [kept (s := d :: rest) ?_, htmlUnescape_cons hc.2.2]
  simp only [List.cons_append, List.nil_append, unescapeEntity, if_true, List.head?_cons, Option.some.injEq, hc.1, hc.2.1, or_self,
    decide_false, if_false, hl']
  split <;> simp

/-- **C84.** `&#` before anything that is neither a digit nor an `x` stands for itself, also at the end and before a semicolon. -/
theorem no_number {rest : Bytes} (hr : ∀ c, rest.head? = some c → ¬ IsDigit c ∧ c ≠ c!"x" ∧ c ≠ c!"X") :
    htmlUnescape (b!"&#" ++ rest) = b!"&#" ++ htmlUnescape rest := by
  apply kept
  cases rest with
  | nil => rfl
  | cons c rest =>
    obtain ⟨h1, h2, h3⟩ := hr c rfl
    simp only [List.cons_append, List.nil_append, unescapeEntity, if_true, List.head?_cons, Option.some.injEq, h2, h3, or_self,
      decide_false, if_false, refLoop, not_digit c h1]
    split
    · rfl
    · rw [if_pos]
      split <;> simp

/-- **C84.** `&#x` before anything that is neither a hexadecimal digit nor a semicolon stands for itself, also at the end. -/
theorem no_hex_number {x : Byte} (hx : x = c!"x" ∨ x = c!"X") {rest : Bytes}
    (hr : ∀ c, rest.head? = some c → ¬ IsHexDigit c ∧ c ≠ c!";") :
    htmlUnescape (b!"&#" ++ x :: rest) = b!"&#" ++ x :: htmlUnescape rest := by
  have ha : x ≠ c!"&" := by rcases hx with rfl | rfl <;> decide
  rw [kept (s := x :: rest) ?_, htmlUnescape_cons ha]
  have hb : (some x = some c!"x" ∨ some x = some c!"X") := by simpa using hx
  have hl := open_eq (hex := true) (ds := []) (d := hexDigit) (by simp) (fun c hc => ⟨not_hex c (hr c hc).1, (hr c hc).2⟩) 0 3 (by simp)
  have hl' : refLoop true rest 0 3 = (0, 3) := by simpa using hl
  simp only [List.cons_append, List.nil_append, unescapeEntity, if_true, List.head?_cons, hb, decide_true, List.drop_succ_cons,
    List.drop_zero, hl']
  split <;> simp

end

example : IsNumeral b!"65" ∧ value b!"65" = 65 := by decide +kernel
example : @htmlUnescape basicEntities b!"&#65 &#x41" = b!"A A" ∧ @htmlUnescape basicEntities b!"&#9 &#xg &#" = b!"&#9 &#xg &#" := by
  decide +kernel

end Verif.Props.NmdcRefs
