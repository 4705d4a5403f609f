import Verif.Go.FloatText

/-! # Underscores in numbers -/

namespace Verif.Go.Float

open Verif.Spec.Float

/-- The text without its underscores. -/
abbrev strip (s : Bytes) : Bytes := s.filter (· ≠ c!"_")

theorem strip_cons {c : Byte} (h : c ≠ c!"_") (s : Bytes) : strip (c :: s) = c :: strip s := by
  simp [strip, h]

theorem strip_under (s : Bytes) : strip (c!"_" :: s) = strip s := by
  simp [strip]

theorem mant_strip (hex : Bool) : ∀ (s : Bytes) (dot : Bool),
    mant hex dot (strip s) = ((mant hex dot s).1, (mant hex dot s).2.1, strip (mant hex dot s).2.2)
  | [], dot => rfl
  | c :: s, dot => by
    by_cases hc : c = c!"_"
    · subst hc
      rw [strip_under, mant_strip hex s dot]
      rw [mant.eq_2 hex dot c!"_" s, if_pos rfl]
    · rw [strip_cons hc, mant, mant, if_neg hc, if_neg hc]
      split
      · cases dot
        · simp only [Bool.false_eq_true, if_false]
          exact mant_strip hex s true
        · simp only [if_true]
          rw [strip_cons hc]
      · cases hd : digit hex c with
        | none => dsimp only; rw [strip_cons hc]
        | some d => dsimp only; rw [mant_strip hex s dot]

/-- What the loop over the mantissa leaves: a part at the end that does not begin with an underscore. -/
theorem mant_rest (hex : Bool) : ∀ (s : Bytes) (dot : Bool), (∃ a, s = a ++ (mant hex dot s).2.2) ∧ ∀ c ∈ (mant hex dot s).2.2.head?, c ≠ c!"_"
  | [], dot => ⟨⟨[], rfl⟩, by simp [mant]⟩
  | c :: s, dot => by
    rw [mant]
    by_cases hc : c = c!"_"
    · rw [if_pos hc]
      obtain ⟨⟨a, h1⟩, h2⟩ := mant_rest hex s dot
      exact ⟨⟨c :: a, by rw [List.cons_append, ← h1]⟩, h2⟩
    · rw [if_neg hc]
      split
      · cases dot
        · simp only [Bool.false_eq_true, if_false]
          obtain ⟨⟨a, h1⟩, h2⟩ := mant_rest hex s true
          exact ⟨⟨c :: a, by rw [List.cons_append, ← h1]⟩, h2⟩
        · exact ⟨⟨[], rfl⟩, by simpa using hc⟩
      · cases hd : digit hex c with
        | none => exact ⟨⟨[], rfl⟩, by simpa using hc⟩
        | some d =>
          obtain ⟨⟨a, h1⟩, h2⟩ := mant_rest hex s dot
          exact ⟨⟨c :: a, by rw [List.cons_append, ← h1]⟩, h2⟩

theorem expLoop_strip : ∀ (s : Bytes) (e : Nat), expLoop e (strip s) = ((expLoop e s).1, strip (expLoop e s).2) ∧
    ∀ c ∈ (expLoop e s).2.head?, c ≠ c!"_"
  | [], e => ⟨rfl, by simp [expLoop]⟩
  | c :: s, e => by
    by_cases hc : c = c!"_"
    · subst hc
      rw [strip_under, expLoop.eq_2 e c!"_" s, if_pos rfl]
      exact expLoop_strip s e
    · rw [strip_cons hc, expLoop, expLoop, if_neg hc, if_neg hc]
      cases hd : digit false c with
      | none => dsimp only; rw [strip_cons hc]; exact ⟨rfl, by simpa using hc⟩
      | some d => exact expLoop_strip s _

theorem strip_nil {s : Bytes} (h : ∀ c ∈ s.head?, c ≠ c!"_") : strip s = [] ↔ s = [] := by
  cases s with
  | nil => simp
  | cons c s => rw [strip_cons (h c (by simp))]; simp

theorem under_head {hex : Bool} {saw : Saw} (hs : saw ≠ .digit) {s : Bytes} (h : underLoop hex saw s = true) : ∀ c ∈ s.head?, c ≠ c!"_" := by
  cases s with
  | nil => simp
  | cons c s =>
    intro c' hc'
    have : c' = c := by simpa using hc'.symm
    subst this
    rintro rfl
    rw [underLoop, if_neg (by rw [digit_none (fun hd => (digit_plain hex _ hd).1 rfl)]; simp), if_pos rfl, if_pos hs] at h
    cases h

theorem under_after {hex : Bool} {c : Byte} (hc : ¬ Digit hex c) (hc' : c ≠ c!"_") {s : Bytes} : ∀ (a : Bytes) (saw : Saw),
    underLoop hex saw (a ++ c :: s) = true → underLoop hex .other s = true
  | [], saw, h => by
    rw [List.nil_append, underLoop, if_neg (by rw [digit_none hc]; simp), if_neg hc'] at h
    split at h
    · cases h
    · exact h
  | x :: a, saw, h => by
    rw [List.cons_append, underLoop] at h
    split at h
    · exact under_after hc hc' a _ h
    · split at h
      · split at h
        · cases h
        · exact under_after hc hc' a _ h
      · split at h
        · cases h
        · exact under_after hc hc' a _ h

theorem sign_strip {s : Bytes} (h : ∀ c ∈ s.head?, c ≠ c!"_") : sign (strip s) = ((sign s).1, strip (sign s).2) := by
  cases s with
  | nil => rfl
  | cons c s =>
    have hc := h c (by simp)
    rw [strip_cons hc]
    unfold sign
    dsimp only
    split
    · rfl
    · split
      · rfl
      · rw [strip_cons hc]

theorem expo_strip {hex : Bool} {s : Bytes} (h : underLoop hex .other s = true) : expo (strip s) = expo s := by
  have h0 := under_head (by decide) h
  have h1 : ∀ c ∈ (sign s).2.head?, c ≠ c!"_" := by
    cases s with
    | nil => simp [sign]
    | cons c s =>
      unfold sign
      dsimp only
      split
      · rename_i hc
        subst hc
        have := under_after (c := c!"+") (by cases hex <;> decide +kernel) (by decide) [] _ h
        exact under_head (by decide) this
      · split
        · rename_i hc
          subst hc
          have := under_after (c := c!"-") (by cases hex <;> decide +kernel) (by decide) [] _ h
          exact under_head (by decide) this
        · exact h0
  unfold expo
  rw [sign_strip h0]
  dsimp only
  cases ht : (sign s).2 with
  | nil => rfl
  | cons c t =>
    rw [ht] at h1
    have hc := h1 c (by simp)
    rw [strip_cons hc]
    dsimp only
    obtain ⟨h2, h3⟩ := expLoop_strip (c :: t) 0
    rw [strip_cons hc] at h2
    rw [h2]
    have h4 : (strip (expLoop 0 (c :: t)).2 ≠ []) = ((expLoop 0 (c :: t)).2 ≠ []) := by
      rw [Ne, Ne, strip_nil h3]
    simp only [h4]

theorem tail_strip {hex : Bool} {r : Bytes} (h0 : ∀ c ∈ r.head?, c ≠ c!"_") {a : Bytes} {saw : Saw} (h : underLoop hex saw (a ++ r) = true) :
    tail hex (strip r) = tail hex r := by
  cases r with
  | nil => rfl
  | cons c r =>
    have hc := h0 c (by simp)
    rw [strip_cons hc]
    unfold tail
    dsimp only
    by_cases hl : lower c = (if hex then c!"p" else c!"e")
    · rw [if_pos hl, if_pos hl]
      obtain ⟨h1, h2, _⟩ := letter_digit hex c hl
      exact expo_strip (under_after h1 h2 a saw h)
    · rw [if_neg hl, if_neg hl]

theorem under_next {hex : Bool} {s : Bytes} (h : underLoop hex .under s = true) : ∃ c t, s = c :: t ∧ Digit hex c := by
  cases s with
  | nil => simp [underLoop] at h
  | cons c s =>
    refine ⟨c, s, rfl, ?_⟩
    rw [underLoop] at h
    by_cases hd : Digit hex c
    · exact hd
    · rw [if_neg (by rw [digit_none hd]; simp)] at h
      simp at h

theorem ok_head {s : Bytes} (h : underscoreOK s = true) : (∀ c ∈ s.head?, c ≠ c!"_") ∧ ∀ c ∈ (sign s).2.head?, c ≠ c!"_" := by
  have h2 : ∀ c ∈ (sign s).2.head?, c ≠ c!"_" := by
    unfold underscoreOK at h
    dsimp only at h
    split at h
    · rename_i hp
      obtain ⟨r, hr | hr⟩ := (hexPrefix_iff _).1 hp <;>
      · rw [hr]; intro c hc
        have : c = c!"0" := by simpa using hc.symm
        subst this; decide
    · exact under_head (by decide) h
  refine ⟨?_, h2⟩
  cases s with
  | nil => simp
  | cons c s =>
    intro c' hc'
    have : c' = c := by simpa using hc'.symm
    subst this
    rintro rfl
    exact h2 c!"_" (by simp [sign]) rfl

/-- With underscores where they may be, a text is read as without them. -/
theorem core_strip {s : Bytes} (h : underscoreOK s = true) : core (strip s) = core s := by
  obtain ⟨h0, h1⟩ := ok_head h
  unfold core
  rw [sign_strip h0]
  dsimp only
  unfold underscoreOK at h
  dsimp only at h
  generalize ht : (sign s).2 = t at *
  cases hp : hexPrefix t with
  | true =>
    rw [hp, if_pos rfl] at h
    have hr : ∃ x r, t = c!"0" :: x :: r ∧ x ≠ c!"_" ∧ hexPrefix (c!"0" :: x :: strip r) = true := by
      obtain ⟨r, hr | hr⟩ := (hexPrefix_iff _).1 hp
      · exact ⟨c!"x", r, hr, by decide, (hexPrefix_iff _).2 ⟨strip r, Or.inl rfl⟩⟩
      · exact ⟨c!"X", r, hr, by decide, (hexPrefix_iff _).2 ⟨strip r, Or.inr rfl⟩⟩
    obtain ⟨x, r, rfl, hx, hp'⟩ := hr
    rw [strip_cons (by decide), strip_cons hx, hp']
    have hl : decide (2 < (c!"0" :: x :: strip r).length) = decide (2 < (c!"0" :: x :: r).length) := by
      cases r with
      | nil => rfl
      | cons c r =>
        have : strip (c :: r) ≠ [] := by
          by_cases hc : c = c!"_"
          · subst hc
            have h' : underLoop true .digit (c!"_" :: r) = true := h
            rw [underLoop, if_neg (by decide +kernel), if_pos rfl, if_neg (by simp)] at h'
            obtain ⟨d, t, rfl, hd⟩ := under_next h'
            rw [strip_under, strip_cons (digit_plain true d hd).1]; simp
          · rw [strip_cons hc]; simp
        have := List.length_pos_iff.2 this
        simp only [List.length_cons]
        simp only [decide_eq_decide]
        omega
    rw [hl]
    cases hd : decide (2 < (c!"0" :: x :: r).length) with
    | false =>
      have : r = [] := by
        cases r with
        | nil => rfl
        | cons c r => simp at hd
      subst this; rfl
    | true =>
      simp only [Bool.and_self, if_true, List.drop_succ_cons, List.drop_zero]
      rw [mant_strip]
      dsimp only
      obtain ⟨⟨a, ha⟩, hrest⟩ := mant_rest true r false
      have h' : underLoop true .digit (a ++ (mant true false r).2.2) = true := by rw [← ha]; exact h
      rw [tail_strip hrest h']
  | false =>
    rw [hp] at h
    simp only [Bool.false_eq_true, if_false] at h
    have hp' : hexPrefix (strip t) = false := by
      match t, h, h1, hp with
      | [], _, _, _ => rfl
      | [c], _, h1, _ => rw [strip_cons (h1 c (by simp))]; rfl
      | c :: x :: r, h, h1, hp =>
        rw [strip_cons (h1 c (by simp))]
        by_cases hx : x = c!"_"
        · subst hx
          rw [strip_under]
          rw [underLoop] at h
          have hn : ∃ d t, r = d :: t ∧ Digit false d := by
            split at h
            · rw [underLoop, if_neg (by decide +kernel), if_pos rfl, if_neg (by simp)] at h
              exact under_next h
            · split at h
              · simp at h
              · split at h
                · cases h
                · exact absurd rfl (under_head (by decide) h c!"_" (by simp))
          obtain ⟨d, t, rfl, hd⟩ := hn
          have hpl := digit_plain false d hd
          rw [strip_cons hpl.1]
          simp [hexPrefix, hpl.2.2.2.2.1]
        · rw [strip_cons hx]; exact hp
    rw [hp']
    simp only [Bool.and_false, Bool.false_eq_true, if_false]
    rw [mant_strip]
    dsimp only
    obtain ⟨⟨a, ha⟩, hrest⟩ := mant_rest false t false
    have h' : underLoop false .start (a ++ (mant false false t).2.2) = true := by rw [← ha]; exact h
    rw [tail_strip hrest h']

/-- The text ends with a digit. -/
def Ends (hex : Bool) (a : Bytes) : Prop := ∃ a' c, a = a' ++ [c] ∧ Digit hex c

/-- The text begins with a digit. -/
def Begins (hex : Bool) (b : Bytes) : Prop := ∃ c t, b = c :: t ∧ Digit hex c

theorem ends_nil (hex : Bool) : ¬ Ends hex [] := by
  rintro ⟨a', c, h, _⟩; simp at h

theorem ends_cons {hex : Bool} {c : Byte} {a : Bytes} : Ends hex (c :: a) ↔ (a = [] ∧ Digit hex c) ∨ Ends hex a := by
  constructor
  · rintro ⟨a', d, h, hd⟩
    cases a' with
    | nil => injection h with h1 h2; subst h1; exact Or.inl ⟨h2, hd⟩
    | cons x a' => injection h with h1 h2; exact Or.inr ⟨a', d, h2, hd⟩
  · rintro (⟨rfl, h⟩ | ⟨a', d, rfl, hd⟩)
    · exact ⟨[], c, rfl, h⟩
    · exact ⟨c :: a', d, rfl, hd⟩

theorem begins_cons {hex : Bool} {c : Byte} {t : Bytes} : Begins hex (c :: t) ↔ Digit hex c := by
  constructor
  · rintro ⟨d, t', h, hd⟩; injection h with h1 h2; subst h1; exact hd
  · intro h; exact ⟨c, t, rfl, h⟩

theorem under_nodigit (hex : Bool) : ¬ Digit hex c!"_" := fun hd => (digit_plain hex _ hd).1 rfl

theorem underLoop_iff (hex : Bool) : ∀ (u : Bytes) (saw : Saw), underLoop hex saw u = true ↔
    (saw = .under → Begins hex u) ∧ ∀ a b, u = a ++ c!"_" :: b → ((a = [] ∧ saw = .digit) ∨ Ends hex a) ∧ Begins hex b
  | [], saw => by
    simp only [underLoop, decide_eq_true_eq]
    constructor
    · intro h
      exact ⟨fun h' => absurd h' h, fun a b h' => by simp at h'⟩
    · rintro ⟨h, _⟩ h'
      obtain ⟨c, t, h, _⟩ := h h'
      cases h
  | c :: s, saw => by
    -- every underscore of the text is its first character or one of what follows
    have split_ : ∀ (Q : Bytes → Bytes → Prop), (∀ a b, c :: s = a ++ c!"_" :: b → Q a b) ↔
        (c = c!"_" → Q [] s) ∧ ∀ a b, s = a ++ c!"_" :: b → Q (c :: a) b := by
      intro Q
      constructor
      · intro h
        exact ⟨fun hc => h [] s (by rw [hc]; rfl), fun a b hs => h (c :: a) b (by rw [hs]; rfl)⟩
      · rintro ⟨h1, h2⟩ a b h
        cases a with
        | nil => injection h with ha hb; rw [← hb]; exact h1 ha
        | cons x a => injection h with ha hb; rw [← ha]; exact h2 a b hb
    rw [split_, underLoop]
    by_cases hd : Digit hex c
    · rw [if_pos (by rw [digit_some hd]; rfl), underLoop_iff hex s .digit]
      have hc := (digit_plain hex c hd).1
      simp only [ends_cons, begins_cons, hd, hc]
      simp
    · rw [if_neg (by rw [digit_none hd]; simp)]
      by_cases hc : c = c!"_"
      · rw [if_pos hc]
        by_cases hsaw : saw = .digit
        · rw [if_neg (by simp [hsaw]), underLoop_iff hex s .under]
          subst hsaw
          simp only [ends_cons, hc, under_nodigit]
          simp
        · rw [if_pos hsaw]
          simp [hc, hsaw, ends_nil]
      · rw [if_neg hc]
        by_cases hsaw : saw = .under
        · rw [if_pos hsaw]
          simp [hsaw, begins_cons, hd]
        · rw [if_neg hsaw, underLoop_iff hex s .other]
          simp only [ends_cons, hd, hc, hsaw]
          simp

theorem ishex_iff (s : Bytes) : IsHex s ↔ hexPrefix (sign s).2 = true := by
  constructor
  · rintro ⟨neg, sg, t, hsg, h⟩
    have hs : ∀ c ∈ (b!"0x" ++ t).head?, c ≠ c!"+" ∧ c ≠ c!"-" := by
      intro c hc
      have : c = c!"0" := by simpa using hc.symm
      subst this; decide
    have hs' : ∀ c ∈ (b!"0X" ++ t).head?, c ≠ c!"+" ∧ c ≠ c!"-" := by
      intro c hc
      have : c = c!"0" := by simpa using hc.symm
      subst this; decide
    rcases h with rfl | rfl
    · rw [sign_append hsg hs]; exact (hexPrefix_iff _).2 ⟨t, Or.inl rfl⟩
    · rw [sign_append hsg hs']; exact (hexPrefix_iff _).2 ⟨t, Or.inr rfl⟩
  · intro h
    obtain ⟨sg, hsg, hs⟩ := sign_parts s
    obtain ⟨r, hr | hr⟩ := (hexPrefix_iff _).1 h
    · exact ⟨_, sg, r, hsg, Or.inl (by rw [← hr]; exact hs)⟩
    · exact ⟨_, sg, r, hsg, Or.inr (by rw [← hr]; exact hs)⟩

theorem digit_hex {c : Byte} (h : Digit false c) (hex : Bool) : Digit hex c := by
  cases hex
  · exact h
  · rcases h with h | ⟨h, _⟩
    · exact Or.inl h
    · cases h

/-- Digits in the notation of the text. -/
theorem digit_of {s : Bytes} {c : Byte} : (∃ hex, (hex = true → IsHex s) ∧ Digit hex c) ↔ Digit (hexPrefix (sign s).2) c := by
  rw [ishex_iff]
  constructor
  · rintro ⟨hex, h1, h2⟩
    cases hex
    · exact digit_hex h2 _
    · rw [h1 rfl]; exact h2
  · intro h
    exact ⟨_, id, h⟩

theorem sign_chars {neg : Bool} {sg : Bytes} (h : Sign neg sg) : sg = [] ∨ ∃ c, sg = [c] ∧ (c = c!"+" ∨ c = c!"-") := by
  rcases h with ⟨_, rfl | rfl⟩ | ⟨_, rfl⟩
  · exact Or.inl rfl
  · exact Or.inr ⟨_, rfl, Or.inl rfl⟩
  · exact Or.inr ⟨_, rfl, Or.inr rfl⟩

/-- The underscores of `pre ++ u` are those of `u`, if `pre` has none. -/
theorem split_at {pre u a b : Bytes} (hp : c!"_" ∉ pre) (h : pre ++ u = a ++ c!"_" :: b) : ∃ a', a = pre ++ a' ∧ u = a' ++ c!"_" :: b := by
  induction pre generalizing a with
  | nil => exact ⟨a, rfl, h⟩
  | cons c pre ih =>
    cases a with
    | nil => injection h with h1 h2; exact absurd (by simp [h1]) hp
    | cons x a =>
      injection h with h1 h2
      obtain ⟨a', h3, h4⟩ := ih (fun h => hp (by simp [h])) h2
      exact ⟨a', by rw [h3, h1]; rfl, h4⟩

theorem ends_append {hex : Bool} {p a : Bytes} (hp : ¬ Ends hex p) : Ends hex (p ++ a) ↔ Ends hex a := by
  constructor
  · rintro ⟨a', c, h, hc⟩
    rcases List.eq_nil_or_concat a with rfl | ⟨a2, c2, rfl⟩
    · rw [List.append_nil] at h; exact absurd ⟨a', c, h, hc⟩ hp
    · rw [List.concat_eq_append, ← List.append_assoc] at h
      have := List.append_inj_right' h rfl
      injection this with h1
      exact ⟨a2, c2, by simp, by rw [h1]; exact hc⟩
  · rintro ⟨a', c, rfl, hc⟩
    exact ⟨p ++ a', c, by simp, hc⟩

/-- The `0x` with its sign. -/
def Pre (a : Bytes) : Prop := ∃ neg sg, Sign neg sg ∧ (a = sg ++ b!"0x" ∨ a = sg ++ b!"0X")

theorem underscores_iff (s : Bytes) : Underscores s ↔
    ∀ a b, s = a ++ c!"_" :: b → (Ends (hexPrefix (sign s).2) a ∨ Pre a) ∧ Begins (hexPrefix (sign s).2) b := by
  unfold Underscores
  refine forall_congr' fun a => forall_congr' fun b => imp_congr_right fun _ => and_congr (or_congr ?_ Iff.rfl) ?_
  · constructor
    · rintro ⟨a', c, hex, rfl, h1, h2⟩
      exact ⟨a', c, rfl, digit_of.1 ⟨hex, h1, h2⟩⟩
    · rintro ⟨a', c, rfl, h⟩
      obtain ⟨hex, h1, h2⟩ := digit_of.2 h
      exact ⟨a', c, hex, rfl, h1, h2⟩
  · constructor
    · rintro ⟨c, b', hex, rfl, h1, h2⟩
      exact ⟨c, b', rfl, digit_of.1 ⟨hex, h1, h2⟩⟩
    · rintro ⟨c, b', rfl, h⟩
      obtain ⟨hex, h1, h2⟩ := digit_of.2 h
      exact ⟨c, b', hex, rfl, h1, h2⟩

theorem sign_under {neg : Bool} {sg : Bytes} (h : Sign neg sg) : c!"_" ∉ sg := by
  rcases h with ⟨_, rfl | rfl⟩ | ⟨_, rfl⟩ <;> decide

theorem sign_ends {neg : Bool} {sg : Bytes} (h : Sign neg sg) (hex : Bool) : ¬ Ends hex sg := by
  rcases h with ⟨_, rfl | rfl⟩ | ⟨_, rfl⟩
  · exact ends_nil hex
  · intro h
    rcases ends_cons.1 h with ⟨_, h⟩ | h
    · exact (digit_plain hex _ h).2.2.1 rfl
    · exact ends_nil hex h
  · intro h
    rcases ends_cons.1 h with ⟨_, h⟩ | h
    · exact (digit_plain hex _ h).2.2.2.1 rfl
    · exact ends_nil hex h

/-- `underscoreOK` lets pass the texts whose underscores are between digits. -/
theorem ok_iff (s : Bytes) : underscoreOK s = true ↔ Underscores s := by
  rw [underscores_iff]
  obtain ⟨sg, hsg, hs⟩ := sign_parts s
  unfold underscoreOK
  dsimp only
  cases hp : hexPrefix (sign s).2 with
  | false =>
    rw [if_neg (by simp), underLoop_iff]
    generalize ht : (sign s).2 = t at *
    simp only [reduceCtorEq, false_implies, and_false, false_or, true_and]
    constructor
    · intro h a b hab
      rw [hs] at hab
      obtain ⟨a', rfl, h2⟩ := split_at (sign_under hsg) hab
      obtain ⟨h3, h4⟩ := h a' b h2
      exact ⟨Or.inl ((ends_append (sign_ends hsg false)).2 h3), h4⟩
    · intro h a b hab
      obtain ⟨h3, h4⟩ := h (sg ++ a) b (by rw [hs, hab, List.append_assoc])
      refine ⟨?_, h4⟩
      rcases h3 with h3 | ⟨neg', sg', h5, h6⟩
      · exact (ends_append (sign_ends hsg false)).1 h3
      · exfalso
        have : IsHex s := by
          refine ⟨neg', sg', c!"_" :: b, h5, ?_⟩
          rw [hs, hab, ← List.append_assoc]
          rcases h6 with h6 | h6
          · rw [h6, List.append_assoc]; exact Or.inl rfl
          · rw [h6, List.append_assoc]; exact Or.inr rfl
        rw [ishex_iff, ht, hp] at this
        cases this
  | true =>
    rw [if_pos rfl, underLoop_iff]
    obtain ⟨u, z, hz, hzu⟩ : ∃ u z, (z = b!"0x" ∨ z = b!"0X") ∧ (sign s).2 = z ++ u := by
      obtain ⟨r, hr | hr⟩ := (hexPrefix_iff _).1 hp
      · exact ⟨r, b!"0x", Or.inl rfl, hr⟩
      · exact ⟨r, b!"0X", Or.inr rfl, hr⟩
    have hdrop : (sign s).2.drop 2 = u := by
      rw [hzu]; rcases hz with rfl | rfl <;> rfl
    rw [hdrop]
    rw [hzu, ← List.append_assoc] at hs
    have hzun : c!"_" ∉ sg ++ z := by
      rw [List.mem_append, not_or]
      refine ⟨sign_under hsg, ?_⟩
      rcases hz with rfl | rfl <;> decide
    have hend : ¬ Ends true (sg ++ z) := by
      rw [ends_append (sign_ends hsg true)]
      rintro ⟨a', c, h, hc⟩
      have hx := (digit_plain true c hc).2.2.2.2.1
      rcases hz with rfl | rfl
      · have : b!"0" ++ [c!"x"] = a' ++ [c] := h
        have := List.append_inj_right' this rfl
        injection this with h1
        exact hx (by rw [← h1]; decide)
      · have : b!"0" ++ [c!"X"] = a' ++ [c] := h
        have := List.append_inj_right' this rfl
        injection this with h1
        exact hx (by rw [← h1]; decide)
    have hpre : ∀ a', Pre (sg ++ z ++ a') ↔ a' = [] := by
      intro a'
      constructor
      · rintro ⟨neg', sg', h5, h6⟩
        have hh : ∀ (z a' : Bytes), (z = b!"0x" ∨ z = b!"0X") → ∀ c ∈ (z ++ a').head?, c ≠ c!"+" ∧ c ≠ c!"-" := by
          intro z a' hz c hc
          have : c = c!"0" := by rcases hz with rfl | rfl <;> simpa using hc.symm
          subst this; decide
        obtain ⟨z', hz', h7⟩ : ∃ z', (z' = b!"0x" ∨ z' = b!"0X") ∧ sg ++ z ++ a' = sg' ++ z' := by
          rcases h6 with h6 | h6
          · exact ⟨_, Or.inl rfl, h6⟩
          · exact ⟨_, Or.inr rfl, h6⟩
        have e1 := sign_append (t := z ++ a') hsg (hh z a' hz)
        have e2 := sign_append (t := z') h5 (by simpa using hh z' [] hz')
        rw [← List.append_assoc, h7, e2] at e1
        have e3 : z' = z ++ a' := congrArg Prod.snd e1
        have e4 := congrArg List.length e3
        rw [List.length_append] at e4
        have l1 : z'.length = 2 := by rcases hz' with rfl | rfl <;> rfl
        have l2 : z.length = 2 := by rcases hz with rfl | rfl <;> rfl
        exact List.length_eq_zero_iff.1 (by omega)
      · rintro rfl
        rw [List.append_nil]
        rcases hz with rfl | rfl
        · exact ⟨_, sg, hsg, Or.inl rfl⟩
        · exact ⟨_, sg, hsg, Or.inr rfl⟩
    simp only [reduceCtorEq, false_implies, and_true, true_and]
    constructor
    · intro h a b hab
      rw [hs] at hab
      obtain ⟨a', rfl, h2⟩ := split_at hzun hab
      obtain ⟨h3, h4⟩ := h a' b h2
      rw [ends_append hend, hpre]
      exact ⟨h3.symm, h4⟩
    · intro h a b hab
      obtain ⟨h3, h4⟩ := h (sg ++ z ++ a) b (by rw [hs, hab]; simp)
      rw [ends_append hend, hpre] at h3
      exact ⟨h3.symm, h4⟩

/-- The notation of numbers. -/
theorem readFloat_iff (s : Bytes) (neg hex : Bool) (M : Nat) (E : Int) : readFloat s = some ⟨neg, M, hex, E⟩ ↔ Number s neg hex M E := by
  have hstrip : c!"_" ∉ strip s := by simp [strip]
  unfold Number
  rw [readFloat_core, ← plain_iff _ hstrip, ← ok_iff]
  by_cases hu : c!"_" ∈ s
  · cases ho : underscoreOK s with
    | false => simp [hu]
    | true => rw [if_neg (by simp), core_strip ho]; simp
  · have ho : underscoreOK s = true := (ok_iff s).2 (fun a b hab => absurd (by rw [hab]; simp) hu)
    rw [if_neg (by simp [ho]), ho, core_strip ho]; simp

end Verif.Go.Float
