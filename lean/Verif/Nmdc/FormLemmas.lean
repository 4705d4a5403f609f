import Verif.Spec.NmdcWire
import Verif.Adc.WireLemmas
import Verif.Nmdc.Wire

/-!
# Lemmas for the text of NMDC messages
-/

namespace Verif.Nmdc

open Verif.Go Verif.Spec Verif.Spec.NmdcWire Verif.Tiger

theorem recoded_iff {c : Codec} {s t : Bytes} : Recoded c s t ↔ c.run s = .ok t := by
  unfold Recoded Codec.run
  cases c with
  | none => simp [eq_comm]
  | some f =>
    simp only
    cases f s with
    | none => simp
    | some u => simp

theorem escText_eq (s : Bytes) : escText s = escWith escapeCharString s := by
  have h : ∀ c : Byte, (if c = c!"&" then b!"&amp;" else if c = c!"$" then b!"&#36;" else if c = c!"|" then b!"&#124;" else [c]) =
      (escapeCharString c).getD [c] := by apply forall_byte; decide +kernel
  unfold escText escWith
  congr 1
  funext c
  exact h c

theorem escName_eq (s : Bytes) : escName s = escWith escapeCharName s := by
  have h : ∀ c : Byte, (if c = c!"&" then b!"&amp;" else if c = c!"$" then b!"&#36;" else if c = c!"|" then b!"&#124;"
      else if c = c!"<" then b!"&lt;" else if c = c!">" then b!"&gt;" else [c]) = (escapeCharName c).getD [c] := by
    apply forall_byte; decide +kernel
  unfold escName escWith
  congr 1
  funext c
  exact h c

theorem badName_iff : ∀ b : Byte, (b ∉ b!"$\x00\r\n\t") ↔ invalidCharName b = false := by
  apply forall_byte; decide +kernel

theorem text_iff {enc : Codec} {s w : Bytes} : WritesText enc s w ↔ Str.marshal enc s = .ok w := by
  rw [str_marshal_ok]
  simp only [WritesText, recoded_iff, escText_eq]

theorem name_iff {enc : Codec} {s w : Bytes} : Piece.Writes enc (.name s) w ↔ Name.marshal enc s = .ok w := by
  rw [name_marshal_ok]
  simp only [Piece.Writes, recoded_iff, escName_eq, badName_iff, maxName]

/-! ## Accumulating pieces -/

theorem ex_through {α β : Type} {P : α → Prop} {f : α → β} {Q : β → Prop} :
    (∃ a, (∃ b, P b ∧ f b = a) ∧ Q a) ↔ ∃ b, P b ∧ Q (f b) := by
  constructor
  · rintro ⟨a, ⟨b, h, rfl⟩, h'⟩; exact ⟨b, h, h'⟩
  · rintro ⟨b, h, h'⟩; exact ⟨_, ⟨b, h, rfl⟩, h'⟩

/-- The pieces written after `a` give `w`. -/
def Wr (enc : Codec) (ps : List Piece) (a w : Bytes) : Prop := ∃ b, Written enc ps b ∧ a ++ b = w

theorem written_wr {enc : Codec} {ps : List Piece} {w : Bytes} : Written enc ps w ↔ Wr enc ps [] w := by
  simp [Wr]

section
variable {enc : Codec} {ps qs : List Piece} {a w : Bytes}

theorem wr_nil : Wr enc [] a w ↔ a = w := by
  constructor
  · rintro ⟨b, h, rfl⟩; cases h; simp
  · rintro rfl; exact ⟨[], .nil, by simp⟩

theorem wr_cons {p : Piece} : Wr enc (p :: ps) a w ↔ ∃ x, p.Writes enc x ∧ Wr enc ps (a ++ x) w := by
  constructor
  · rintro ⟨b, h, rfl⟩
    cases h with
    | cons h1 h2 => exact ⟨_, h1, _, h2, by simp⟩
  · rintro ⟨x, h1, b, h2, rfl⟩
    exact ⟨_, .cons h1 h2, by simp⟩

theorem wr_append : Wr enc (ps ++ qs) a w ↔ ∃ x, Written enc ps x ∧ Wr enc qs (a ++ x) w := by
  induction ps generalizing a with
  | nil =>
    simp only [List.nil_append]
    constructor
    · intro h; exact ⟨[], .nil, by simpa using h⟩
    · rintro ⟨x, h, h'⟩; cases h; simpa using h'
  | cons p ps ih =>
    rw [List.cons_append, wr_cons]
    constructor
    · rintro ⟨x, h1, h2⟩
      obtain ⟨y, h3, h4⟩ := ih.mp h2
      exact ⟨x ++ y, .cons h1 h3, by simpa using h4⟩
    · rintro ⟨x, h1, h2⟩
      cases h1 with
      | cons h3 h4 => exact ⟨_, h3, ih.mpr ⟨_, h4, by simpa using h2⟩⟩

theorem wr_lit {s : Bytes} : Wr enc (.lit s :: ps) a w ↔ Wr enc ps (a ++ s) w := by
  rw [wr_cons]; simp [Piece.Writes]

theorem wr_num {n : Int} : Wr enc (.num n :: ps) a w ↔ Wr enc ps (a ++ itoa n) w := by
  rw [wr_cons]; simp [Piece.Writes, itoa_decimal]

theorem wr_nat {n : Nat} : Wr enc (.num n :: ps) a w ↔ Wr enc ps (a ++ utoa n) w := by
  rw [wr_num, itoa_natCast]

theorem wr_hash {h : Hash} : Wr enc (.hash h :: ps) a w ↔ Wr enc ps (a ++ h.base32) w := by
  rw [wr_cons]; simp [Piece.Writes, Verif.Adc.base32_eq]

theorem wr_name {s : Bytes} : Wr enc (.name s :: ps) a w ↔ ∃ x, Name.marshal enc s = .ok x ∧ Wr enc ps (a ++ x) w := by
  rw [wr_cons]; simp only [name_iff]

theorem wr_text {s : Bytes} : Wr enc (.text s :: ps) a w ↔ ∃ x, Str.marshal enc s = .ok x ∧ Wr enc ps (a ++ x) w := by
  rw [wr_cons]; simp only [Piece.Writes, text_iff]

theorem wr_pattern {s : Bytes} :
    Wr enc (.pattern s :: ps) a w ↔ ∃ x, Str.marshal enc s = .ok x ∧ Wr enc ps (a ++ replaceByte x c!" " c!"$") w := by
  rw [wr_cons]
  simp only [Piece.Writes, text_iff, replaceByte]
  constructor
  · rintro ⟨x, ⟨v, h, rfl⟩, h'⟩; exact ⟨v, h, h'⟩
  · rintro ⟨v, h, h'⟩; exact ⟨_, ⟨v, h, rfl⟩, h'⟩

end

theorem wr_extra {enc : Codec} {l : StrMap} {ps : List Piece} {a w : Bytes} :
    Wr enc (l.flatMap (fun e => [.lit b!",", .lit e.1, .lit b!":", .lit e.2]) ++ ps) a w ↔
      Wr enc ps (a ++ l.flatMap (fun e => b!"," ++ e.1 ++ b!":" ++ e.2)) w := by
  induction l generalizing a with
  | nil => simp
  | cons e l ih =>
    simp only [List.flatMap_cons, List.append_assoc, List.cons_append, List.nil_append, wr_lit, ih]

theorem strAll_iff {enc : Codec} {l ws : List Bytes} : strAll enc l = .ok ws ↔ All2 (fun s w => Str.marshal enc s = .ok w) l ws := by
  induction l generalizing ws with
  | nil =>
    simp only [strAll, Res.ok.injEq]
    constructor
    · rintro rfl; exact .nil
    · intro h; cases h; rfl
  | cons s l ih =>
    simp only [strAll, Res.bind_eq_ok, Res.ok.injEq, ih]
    constructor
    · rintro ⟨w, h1, ws, h2, rfl⟩; exact .cons h1 h2
    · intro h; cases h with | cons h1 h2 => exact ⟨_, h1, _, h2, rfl⟩

theorem marshalPath_eq (enc : Codec) (l : List Bytes) : marshalPath enc l = strAll enc l := by
  induction l with
  | nil => rfl
  | cons s l ih => simp only [marshalPath, strAll, ih]; rfl

/-- Texts with separators. -/
theorem between_texts {enc : Codec} {sep : Byte} {l : List Bytes} {w : Bytes} :
    Written enc (between [sep] (l.map .text)) w ↔ ∃ ws, strAll enc l = .ok ws ∧ w = join ws sep := by
  simp only [strAll_iff]
  induction l generalizing w with
  | nil =>
    simp only [between, List.map_nil, List.intersperse_nil]
    constructor
    · intro h; cases h; exact ⟨[], .nil, rfl⟩
    · rintro ⟨ws, h, rfl⟩; cases h; exact .nil
  | cons s l ih =>
    cases l with
    | nil =>
      simp only [between, List.map_cons, List.map_nil, List.intersperse_singleton]
      rw [written_wr, wr_text]
      simp only [wr_nil, List.nil_append]
      constructor
      · rintro ⟨x, h, rfl⟩; exact ⟨[x], .cons h .nil, rfl⟩
      · rintro ⟨ws, h, rfl⟩
        cases h with | cons h h' => cases h'; exact ⟨_, h, rfl⟩
    | cons s' l =>
      simp only [between, List.map_cons] at ih ⊢
      rw [List.intersperse_cons_cons, written_wr, wr_text]
      simp only [wr_lit, List.nil_append]
      simp only [Wr, ih]
      constructor
      · rintro ⟨x, h, b, ⟨ws, h', rfl⟩, rfl⟩
        refine ⟨x :: ws, .cons h h', ?_⟩
        cases h'
        simp [join]
      · rintro ⟨ws, h, rfl⟩
        cases h with
        | cons h h' =>
          refine ⟨_, h, _, ⟨_, h', rfl⟩, ?_⟩
          cases h'
          simp [join]

theorem wr_texts {enc : Codec} {sep : Byte} {l : List Bytes} {ps : List Piece} {a w : Bytes} :
    Wr enc (between [sep] (l.map .text) ++ ps) a w ↔ ∃ ws, strAll enc l = .ok ws ∧ Wr enc ps (a ++ join ws sep) w := by
  rw [wr_append]
  simp only [between_texts]
  constructor
  · rintro ⟨x, ⟨ws, h, rfl⟩, h'⟩; exact ⟨ws, h, h'⟩
  · rintro ⟨ws, h, h'⟩; exact ⟨_, ⟨ws, h, rfl⟩, h'⟩

theorem wr_texts_end {enc : Codec} {sep : Byte} {l : List Bytes} {a w : Bytes} :
    Wr enc (between [sep] (l.map .text)) a w ↔ ∃ ws, strAll enc l = .ok ws ∧ a ++ join ws sep = w := by
  have := wr_texts (enc := enc) (sep := sep) (l := l) (ps := []) (a := a) (w := w)
  rwa [List.append_nil, funext fun ws => propext (and_congr_right_iff.mpr fun _ => wr_nil)] at this

theorem between_lits {enc : Codec} {sep : Byte} {l : List Bytes} {w : Bytes} :
    Written enc (between [sep] (l.map .lit)) w ↔ w = join l sep := by
  induction l generalizing w with
  | nil =>
    simp only [between, List.map_nil, List.intersperse_nil]
    rw [written_wr, wr_nil]
    exact eq_comm
  | cons s l ih =>
    cases l with
    | nil =>
      simp only [between, List.map_cons, List.map_nil, List.intersperse_singleton]
      rw [written_wr, wr_lit, wr_nil]
      exact eq_comm
    | cons s' l =>
      simp only [between, List.map_cons] at ih ⊢
      rw [List.intersperse_cons_cons, written_wr, wr_lit, wr_lit]
      simp only [Wr, ih, exists_eq_left, List.nil_append]
      rw [eq_comm]
      simp [join]

theorem toU64_eq (k : Int) : (toU64 k : Int) = unsigned k := by
  unfold toU64 unsigned
  omega

theorem toI64_eq (n : Nat) : toI64 n = signed n := rfl

end Verif.Nmdc
