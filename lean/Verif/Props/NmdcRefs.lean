import Verif.Props.NmdcText
import Verif.Spec.Decimal

/-!
# C84: character references in NMDC text

Models: `Verif/Go/Html.lean`, `Verif/Nmdc/Types.lean`.
-/

namespace Verif.Props.NmdcRefs

open Verif Verif.Go Verif.Nmdc Verif.Spec

/-- Hexadecimal digits. -/
def IsHexDigit (b : Byte) : Prop :=
  (48 ≤ b.toNat ∧ b.toNat ≤ 57) ∨ (97 ≤ b.toNat ∧ b.toNat ≤ 102) ∨ (65 ≤ b.toNat ∧ b.toNat ≤ 70)

instance (b : Byte) : Decidable (IsHexDigit b) := inferInstanceAs (Decidable (_ ∨ _))

/-- The value of a hexadecimal digit. -/
def hexDigit (b : Byte) : Nat :=
  if b.toNat ≤ 57 then b.toNat - 48 else if b.toNat ≤ 70 then b.toNat - 55 else b.toNat - 87

/-- The value of a hexadecimal numeral. -/
def hexValue (s : Bytes) : Nat := s.foldl (fun n b => 16 * n + hexDigit b) 0

/-- The upper half of Windows-1252 where it differs from Unicode; the five codes it does not use stand for themselves. -/
def windows1252 : List Char :=
  ['€', '\x81', '‚', 'ƒ', '„', '…', '†', '‡', 'ˆ', '‰', 'Š', '‹', 'Œ', '\x8D', 'Ž', '\x8F',
   '\x90', '‘', '’', '“', '”', '•', '–', '—', '˜', '™', 'š', '›', 'œ', '\x9D', 'ž', 'Ÿ']

/-- The character a reference to the number `n` stands for. -/
def refChar (n : Nat) : Nat :=
  if 0x80 ≤ n ∧ n < 0xA0 then (windows1252.getD (n - 0x80) ' ').toNat
  else if n = 0 ∨ ¬ IsScalar n then 0xFFFD else n

theorem table : ∀ i < 32, encodeRune ((replacementTable.getD i 0 : Nat) : Int) = utf8 (windows1252.getD i ' ').toNat := by
  decide +kernel

theorem refRune_eq (n : Nat) : refRune (n : Int) = utf8 (refChar n) := by
  unfold refRune refChar
  by_cases h : 0x80 ≤ n ∧ n < 0xA0
  · rw [if_pos (by omega), if_pos h, Int.toNat_natCast]
    exact table _ (by omega)
  · rw [if_neg (by omega), if_neg h]
    by_cases h' : n = 0 ∨ ¬ IsScalar n
    · rw [if_pos h', if_pos (by unfold IsScalar at h'; omega)]
      decide +kernel
    · rw [if_neg h', if_neg (by unfold IsScalar at h'; omega)]
      simp only [encodeRune, Int.toNat_natCast]
      rw [if_pos ⟨by omega, by simp only [not_or, Decidable.not_not] at h'; exact h'.2⟩]

theorem wrap32_id {x : Int} (h0 : 0 ≤ x) (h : x < 2147483648) : wrap32 x = x := by
  unfold wrap32; omega

theorem fold_le (base : Nat) (d : Byte → Nat) (hb : 1 ≤ base) (ds : Bytes) (n : Nat) :
    n ≤ ds.foldl (fun n b => base * n + d b) n := by
  induction ds generalizing n with
  | nil => simp
  | cons c ds ih =>
    simp only [List.foldl_cons]
    have := ih (base * n + d c)
    have : n ≤ base * n := Nat.le_mul_of_pos_left n hb
    omega

theorem loop_eq {hex : Bool} {d : Byte → Nat} {ds : Bytes} (hd : ∀ b ∈ ds, refDigit hex b = some (d b : Int)) (rest : Bytes) (n i : Nat)
    (hv : ds.foldl (fun n b => (if hex then 16 else 10) * n + d b) n < 2147483648) :
    refLoop hex (ds ++ b!";" ++ rest) n i =
      (((ds.foldl (fun n b => (if hex then 16 else 10) * n + d b) n : Nat) : Int), i + ds.length + 1) := by
  induction ds generalizing n i with
  | nil =>
    have : refDigit hex c!";" = none := by cases hex <;> decide
    simp [refLoop, this]
  | cons c ds ih =>
    simp only [List.cons_append, refLoop, hd c (by simp), List.foldl_cons] at hv ⊢
    have hle := fold_le (if hex then 16 else 10) d (by split <;> omega) ds ((if hex then 16 else 10) * n + d c)
    have e : wrap32 ((if hex then 16 else 10) * (n : Int) + (d c : Int)) = (((if hex then 16 else 10) * n + d c : Nat) : Int) := by
      rw [wrap32_id]
      · cases hex <;> simp
      · cases hex <;> simp <;> omega
      · cases hex <;> simp at hle hv ⊢ <;> omega
    rw [e]
    have := ih (fun b hb => hd b (by simp [hb])) ((if hex then 16 else 10) * n + d c) (i + 1) hv
    rw [this, List.length_cons]
    congr 1; omega

theorem refDigit_dec (b : Byte) (h : IsDigit b) : refDigit false b = some ((b.toNat - 48 : Nat) : Int) := by
  revert h; revert b; apply forall_byte; decide +kernel

theorem refDigit_hex (b : Byte) (h : IsHexDigit b) : refDigit true b = some ((hexDigit b : Nat) : Int) := by
  revert h; revert b; apply forall_byte; decide +kernel

section

variable [HtmlEntities]

/-- **C84.** A reference by a decimal number is read as its character. -/
theorem decimal_reference {ds : Bytes} (h : IsNumeral ds) (hv : value ds < 2147483648) (rest : Bytes) :
    htmlUnescape (b!"&#" ++ ds ++ b!";" ++ rest) = utf8 (refChar (value ds)) ++ htmlUnescape rest := by
  obtain ⟨c, ds, rfl⟩ := List.exists_cons_of_ne_nil h.1
  have hc : c ≠ c!"x" ∧ c ≠ c!"X" := by
    have := h.2 c (by simp)
    constructor <;> (rintro rfl; revert this; decide)
  have hl := loop_eq (hex := false) (d := fun b => b.toNat - 48) (fun b hb => refDigit_dec b (h.2 b hb)) rest 0 2
    (by simpa [value] using hv)
  have := htmlUnescape_entity (e := c!"#" :: (c :: ds) ++ b!";") (v := utf8 (refChar (value (c :: ds)))) (s := rest) (by
    rw [← refRune_eq]
    have hl' : refLoop false (c :: (ds ++ c!";" :: rest)) 0 2 = (((value (c :: ds) : Nat) : Int), 2 + (ds.length + 1) + 1) := by
      simpa [value] using hl
    simp only [List.cons_append, List.append_assoc, List.nil_append, unescapeEntity, if_true, List.length_cons, List.length_append,
      List.head?_cons, Option.some.injEq, hc.1, hc.2, or_self, decide_false, if_false, hl', List.length_nil]
    rw [if_neg (by omega), if_neg (by omega)]
    congr 1; omega)
  simpa using this

/-- **C84.** A reference by a hexadecimal number is read as its character. -/
theorem hex_reference {x : Byte} (hx : x = c!"x" ∨ x = c!"X") {ds : Bytes} (hne : ds ≠ []) (h : ∀ b ∈ ds, IsHexDigit b)
    (hv : hexValue ds < 2147483648) (rest : Bytes) :
    htmlUnescape (b!"&#" ++ x :: ds ++ b!";" ++ rest) = utf8 (refChar (hexValue ds)) ++ htmlUnescape rest := by
  have hn : 0 < ds.length := List.length_pos_iff.mpr hne
  have hl := loop_eq (hex := true) (d := hexDigit) (fun b hb => refDigit_hex b (h b hb)) rest 0 3
    (by simpa [hexValue] using hv)
  have := htmlUnescape_entity (e := c!"#" :: x :: ds ++ b!";") (v := utf8 (refChar (hexValue ds))) (s := rest) (by
    rw [← refRune_eq]
    have hl' : refLoop true (ds ++ c!";" :: rest) 0 3 = (((hexValue ds : Nat) : Int), 3 + ds.length + 1) := by
      simpa [hexValue] using hl
    simp only [List.cons_append, List.append_assoc, List.nil_append, unescapeEntity, if_true, List.length_cons, List.length_append,
      List.head?_cons, Option.some.injEq, hx, decide_true, List.drop_succ_cons, List.drop_zero, hl', List.length_nil]
    rw [if_neg (by omega), if_neg (by omega)]
    congr 1; omega)
  simpa using this

/-- **C84.** A reference by name is read as the value the HTML table gives for the name. -/
theorem named_reference {n v : Bytes} (hn : ∀ c ∈ n, isAlnum c = true) (hne : n ≠ []) (h : entity (n ++ b!";") = some v) (rest : Bytes) :
    htmlUnescape (b!"&" ++ n ++ b!";" ++ rest) = v ++ htmlUnescape rest := by
  simpa using htmlUnescape_named (s := rest) hn hne h

/-- **C84.** An ampersand before something that is not a letter, digit or `#` stands for itself, also at the end. -/
theorem lone_ampersand (rest : Bytes) (h : ∀ c, rest.head? = some c → isAlnum c = false ∧ c ≠ c!"#" ∧ c ≠ c!";") :
    htmlUnescape (c!"&" :: rest) = c!"&" :: htmlUnescape rest := by
  have := htmlUnescape_entity (e := []) (v := b!"&") (s := rest) (by
    cases rest with
    | nil => rfl
    | cons c rest =>
      obtain ⟨h1, h2, h3⟩ := h c rfl
      simp [unescapeEntity, h2, nameLoop, h1, h3])
  simpa using this

/-! ## Whole texts -/

/-- The pieces of a text. -/
inductive Piece where
  | byte (b : Byte)
  | dec (ds : Bytes)
  | hex (upper : Bool) (ds : Bytes)
  | name (n v : Bytes)

/-- A byte that is not `&`, a number below 2³¹, a name of the table with its value. -/
def Piece.Ok : Piece → Prop
  | .byte b => b ≠ c!"&"
  | .dec ds => IsNumeral ds ∧ value ds < 2147483648
  | .hex _ ds => ds ≠ [] ∧ (∀ b ∈ ds, IsHexDigit b) ∧ hexValue ds < 2147483648
  | .name n v => n ≠ [] ∧ (∀ c ∈ n, isAlnum c = true) ∧ entity (n ++ b!";") = some v

/-- How a piece is written. -/
def Piece.source : Piece → Bytes
  | .byte b => [b]
  | .dec ds => b!"&#" ++ ds ++ b!";"
  | .hex upper ds => b!"&#" ++ (if upper then c!"X" else c!"x") :: ds ++ b!";"
  | .name n _ => b!"&" ++ n ++ b!";"

/-- What a piece means. -/
def Piece.meaning : Piece → Bytes
  | .byte b => [b]
  | .dec ds => utf8 (refChar (value ds))
  | .hex _ ds => utf8 (refChar (hexValue ds))
  | .name _ v => v

/-- **C84.** A text with references means what its pieces mean. -/
theorem pieces_html (ps : List Piece) (h : ∀ p ∈ ps, p.Ok) : htmlUnescape (ps.flatMap Piece.source) = ps.flatMap Piece.meaning := by
  induction ps with
  | nil => rfl
  | cons p ps ih =>
    have ih := ih (fun q hq => h q (by simp [hq]))
    have hp := h p (by simp)
    simp only [List.flatMap_cons]
    rw [← ih]
    generalize ps.flatMap Piece.source = rest
    cases p with
    | byte b => exact htmlUnescape_cons hp rest
    | dec ds => exact decimal_reference hp.1 hp.2 rest
    | hex u ds => exact hex_reference (by cases u <;> simp) hp.1 hp.2.1 hp.2.2 rest
    | name n v => exact named_reference hp.2.1 hp.1 hp.2.2 rest

theorem unescape_html {s : Bytes} (h : contains s b!"/%DCN" = false) : unescapeBytes s = htmlUnescape s := by
  unfold unescapeBytes
  simp only [h, Bool.not_false, Bool.and_true]
  cases hi : indexByte s c!"&" with
  | some i => simp
  | none => simp [htmlUnescape_id (indexByte_none.mp hi)]

/-- **C84.** `Unescape` on a text with references, without the old escapes `/%DCNnnn%/`. -/
theorem pieces_unescape (ps : List Piece) (h : ∀ p ∈ ps, p.Ok) (hl : contains (ps.flatMap Piece.source) b!"/%DCN" = false) :
    unescapeBytes (ps.flatMap Piece.source) = ps.flatMap Piece.meaning := by
  rw [unescape_html hl, pieces_html ps h]

/-- **C84.** The decoder of texts on a text with references. -/
theorem pieces_text (ps : List Piece) (h : ∀ p ∈ ps, p.Ok) (hl : contains (ps.flatMap Piece.source) b!"/%DCN" = false)
    (h0 : (0 : Byte) ∉ ps.flatMap Piece.source) (hu : IsUtf8 (ps.flatMap Piece.meaning)) :
    Str.unmarshal none (ps.flatMap Piece.source) = .ok (ps.flatMap Piece.meaning) := by
  unfold Str.unmarshal
  rw [indexByte_none.mpr h0, pieces_unescape ps h hl]
  simp [Codec.run, validUtf8_iff.mpr hu]

end

attribute [local instance] basicEntities

example : ∃ ps : List Piece, (∀ p ∈ ps, p.Ok) ∧ ps.flatMap Piece.source = b!"a&#8364;&#X1f600;&amp;&#150;&#0;&#xD800;" ∧
    ps.flatMap Piece.meaning = b!"a€😀&–\uFFFD\uFFFD" :=
  ⟨[.byte c!"a", .dec b!"8364", .hex true b!"1f600", .name b!"amp" b!"&", .dec b!"150", .dec b!"0", .hex false b!"D800"],
    by simp only [List.mem_cons, List.not_mem_nil, or_false, forall_eq_or_imp, forall_eq, Piece.Ok]; decide +kernel, by decide +kernel,
    by decide +kernel⟩

/-- **C84.** The number of a reference is kept in 32 bits: a number of 2³² or more is read as another one. -/
theorem large_number_wraps : htmlUnescape b!"&#4294967361;" = b!"A" := by with_unfolding_all rfl

/-- **C84.** A hexadecimal reference without digits is read as U+FFFD; a decimal one stands for itself. -/
theorem no_digits : htmlUnescape b!"&#x;" = b!"\uFFFD" ∧ htmlUnescape b!"&#;a" = b!"&#;a" := by
  constructor <;> with_unfolding_all rfl

end Verif.Props.NmdcRefs
