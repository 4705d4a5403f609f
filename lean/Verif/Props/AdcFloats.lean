import Verif.Adc.Floats
import Verif.Go.FloatRound
import Verif.Go.FloatUnder
import Verif.Adc.WireLemmas
import Verif.Props.AdcBack
import Verif.Props.AdcOwnLibrary

/-! # Integers of ADC that are written with a point or an exponent -/

namespace Verif.Props.AdcFloats

open Verif.Adc Verif.Go Verif.Go.Float Verif.Spec.Float

/-- What a text stands for in a format. -/
def Reads (F : Format) (s : Bytes) : Value → Prop
  | .nan => NotANumber s
  | .inf neg => Infinity s neg
  | .num neg X => ∃ hex M E, Number s neg hex M E ∧ Nearest F.bits (scaled F.unit hex M E).1 (scaled F.unit hex M E).2 X ∧ X < 2 ^ (F.top + F.unit)
  | .bad => ¬ NotANumber s ∧ (∀ neg, ¬ Infinity s neg) ∧ ∀ neg hex M E, Number s neg hex M E →
      ∃ X, Nearest F.bits (scaled F.unit hex M E).1 (scaled F.unit hex M E).2 X ∧ 2 ^ (F.top + F.unit) ≤ X

theorem lower_letters : ∀ c : Byte, ∀ d ∈ b!"anifty", (lower c = d ↔ c = d ∨ c + 32 = d) := by
  apply forall_byte; decide +kernel

theorem caseless_iff (w : Bytes) (hw : ∀ c ∈ w, c ∈ b!"anifty") (s : Bytes) : s.map lower = w ↔ Caseless w s := by
  unfold Caseless
  induction s generalizing w with
  | nil => cases w <;> simp
  | cons c s ih =>
    cases w with
    | nil => simp
    | cons d w =>
      have h1 := lower_letters c d (hw d (by simp))
      have h2 := ih w (fun x hx => hw x (by simp [hx]))
      simp only [List.map_cons, List.cons.injEq, h2, h1, List.length_cons, List.zip_cons_cons, List.mem_cons, forall_eq_or_imp]
      constructor
      · rintro ⟨h3, h4, h5⟩; exact ⟨by omega, h3, h5⟩
      · rintro ⟨h3, h4, h5⟩; exact ⟨h4, by omega, h5⟩

theorem nan_iff (s : Bytes) : s.map lower = b!"nan" ↔ NotANumber s := caseless_iff _ (by decide) s

theorem lower_head {s : Bytes} {d : Byte} {w : Bytes} (h : s.map lower = d :: w) : ∃ c t, s = c :: t ∧ lower c = d := by
  cases s with
  | nil => cases h
  | cons c t => injection h with h1 h2; exact ⟨c, t, rfl, h1⟩

theorem lower_letter : ∀ c : Byte, lower c = c!"i" ∨ lower c = c!"n" →
    c ≠ c!"+" ∧ c ≠ c!"-" ∧ ¬ Digit false c ∧ c ≠ c!"_" ∧ c ≠ c!"." ∧ c ≠ c!"0" := by
  apply forall_byte; decide +kernel

theorem special_iff (s : Bytes) (v : Value) : special s = some v ↔ (v = .nan ∧ NotANumber s) ∨ ∃ neg, v = .inf neg ∧ Infinity s neg := by
  have hinf : ∀ neg, Infinity s neg ↔ (neg = (sign s).1 ∧ ((sign s).2.map lower = b!"inf" ∨ (sign s).2.map lower = b!"infinity")) := by
    intro neg
    constructor
    · rintro ⟨sg, t, rfl, hsg, h⟩
      rw [← caseless_iff _ (by decide), ← caseless_iff _ (by decide)] at h
      have hh : ∃ c r, t = c :: r ∧ lower c = c!"i" := by
        rcases h with h | h <;> exact lower_head h
      obtain ⟨c, r, rfl, hc⟩ := hh
      have hl := lower_letter c (Or.inl hc)
      rw [sign_append hsg (by simp [hl.1, hl.2.1])]
      exact ⟨rfl, h⟩
    · rintro ⟨rfl, h⟩
      obtain ⟨sg, h1, h2⟩ := sign_parts s
      exact ⟨sg, _, h2, h1, by rw [← caseless_iff _ (by decide), ← caseless_iff _ (by decide)]; exact h⟩
  have hex : ∀ neg, Infinity s neg → ¬ NotANumber s := by
    intro neg h hn
    rw [hinf] at h
    rw [← nan_iff] at hn
    obtain ⟨c, t, rfl, hc⟩ := lower_head hn
    have hl := lower_letter c (Or.inr hc)
    have : sign (c :: t) = (false, c :: t) := by simp [sign, hl.1, hl.2.1]
    rw [this, hn] at h
    exact absurd h.2 (by decide)
  unfold special
  constructor
  · intro h
    dsimp only at h
    split at h
    · rename_i hi
      exact Or.inr ⟨_, (Option.some.inj h).symm, (hinf _).2 ⟨rfl, hi⟩⟩
    · split at h
      · rename_i hn
        exact Or.inl ⟨(Option.some.inj h).symm, (nan_iff s).1 hn⟩
      · cases h
  · rintro (⟨rfl, h⟩ | ⟨neg, rfl, h⟩)
    · dsimp only
      rw [if_neg, if_pos ((nan_iff s).2 h)]
      intro hi
      exact hex _ ((hinf _).2 ⟨rfl, hi⟩) h
    · obtain ⟨rfl, hi⟩ := (hinf _).1 h
      dsimp only
      rw [if_pos hi]

/-- Words are no numbers. -/
theorem special_read {s : Bytes} {v : Value} (h : special s = some v) : readFloat s = none := by
  have hh : ∃ c r, (sign s).2 = c :: r ∧ ¬ Digit false c ∧ c ≠ c!"_" ∧ c ≠ c!"." ∧ c ≠ c!"0" := by
    unfold special at h
    dsimp only at h
    split at h
    · rename_i hi
      have : ∃ c r, (sign s).2 = c :: r ∧ lower c = c!"i" := by
        rcases hi with hi | hi <;> exact lower_head hi
      obtain ⟨c, r, h1, h2⟩ := this
      exact ⟨c, r, h1, (lower_letter c (Or.inl h2)).2.2⟩
    · split at h
      · rename_i hn
        obtain ⟨c, t, rfl, hc⟩ := lower_head hn
        have hl := lower_letter c (Or.inr hc)
        exact ⟨c, t, by simp [sign, hl.1, hl.2.1], hl.2.2⟩
      · cases h
  obtain ⟨c, r, h1, h2, h3, h4, h5⟩ := hh
  have hp : hexPrefix (c :: r) = false := by
    cases r with
    | nil => rfl
    | cons x r => simp [hexPrefix, h5]
  have hc : core s = none := by
    unfold core
    rw [h1]
    dsimp only
    rw [hp]
    simp only [Bool.and_false, Bool.false_eq_true, if_false]
    rw [mant_stop false false (c :: r) (by intro x hx; have : x = c := by simpa using hx.symm
                                           subst this; exact ⟨h2, h3, h4⟩)]
    simp
  rw [readFloat_core, hc]
  simp

theorem scaled_pos (u : Nat) (hex : Bool) (M : Nat) (E : Int) : 0 < (scaled u hex M E).2 := by
  unfold scaled
  split
  · exact Nat.one_pos
  · cases hex
    · exact Nat.pow_pos (by decide)
    · exact Nat.pow_pos (by decide)

theorem finite_eq (F : Format) (p : Parts) : finite F p =
    if round F.bits (scaled F.unit p.hex p.mant p.exp).1 (scaled F.unit p.hex p.mant p.exp).2 < 2 ^ (F.top + F.unit) then
      .num p.neg (round F.bits (scaled F.unit p.hex p.mant p.exp).1 (scaled F.unit p.hex p.mant p.exp).2) else .bad := by
  unfold finite scaled
  by_cases h : 0 ≤ p.exp
  · simp only [if_pos h]
  · simp only [if_neg h]

/-- **Parsing a number.**  A text gives what it stands for: one of the words for not a number and the infinities, or a number of the notation,
whose value is the number of the format that is nearest to it; everything else, and what is nearest to a number that is too large, is an
error. -/
theorem parse_iff (F : Format) (hF : 0 < F.bits) (s : Bytes) (v : Value) : parse F s = v ↔ Reads F s v := by
  have hnear := fun hex M E => round_nearest F.bits (scaled F.unit hex M E).1 (scaled F.unit hex M E).2 hF (scaled_pos _ hex M E)
  have huniq : ∀ {neg hex M E neg' hex' M' E'}, Number s neg hex M E → Number s neg' hex' M' E' → neg = neg' ∧ hex = hex' ∧ M = M' ∧ E = E' := by
    intro neg hex M E neg' hex' M' E' h h'
    rw [← readFloat_iff] at h h'
    rw [h] at h'
    injection h' with h'
    injection h' with a b c d
    exact ⟨a, c, b, d⟩
  have hspec : ∀ {neg hex M E}, Number s neg hex M E → special s = none := by
    intro neg hex M E h
    cases hs : special s with
    | none => rfl
    | some v =>
      rw [← readFloat_iff, special_read hs] at h
      cases h
  have hsome : ∀ {neg hex M E}, Number s neg hex M E → parse F s = finite F ⟨neg, M, hex, E⟩ := by
    intro neg hex M E h
    unfold parse
    rw [hspec h]
    rw [← readFloat_iff] at h
    rw [h]
  have hword : ∀ {v}, special s = some v → parse F s = v := by
    intro v h; unfold parse; rw [h]
  -- what is parsed is what the text stands for
  have hsound : Reads F s (parse F s) := by
    cases hs : special s with
    | some v =>
      rw [hword hs]
      rcases (special_iff s v).1 hs with ⟨rfl, h⟩ | ⟨neg, rfl, h⟩
      · exact h
      · exact h
    | none =>
      have hn : ¬ NotANumber s := fun h => by
        have := (special_iff s .nan).2 (Or.inl ⟨rfl, h⟩); rw [hs] at this; cases this
      have hi : ∀ neg, ¬ Infinity s neg := fun neg h => by
        have := (special_iff s (.inf neg)).2 (Or.inr ⟨neg, rfl, h⟩); rw [hs] at this; cases this
      cases hr : readFloat s with
      | none =>
        have : parse F s = .bad := by unfold parse; rw [hs, hr]
        rw [this]
        exact ⟨hn, hi, fun neg hex M E h => by rw [← readFloat_iff, hr] at h; cases h⟩
      | some p =>
        obtain ⟨neg, M, hex, E⟩ := p
        have hN := (readFloat_iff s neg hex M E).1 hr
        rw [hsome hN, finite_eq]
        dsimp only
        split
        · rename_i hlt
          exact ⟨hex, M, E, hN, hnear hex M E, hlt⟩
        · rename_i hge
          refine ⟨hn, hi, fun neg' hex' M' E' h' => ?_⟩
          obtain ⟨_, rfl, rfl, rfl⟩ := huniq hN h'
          exact ⟨_, hnear hex M E, by omega⟩
  constructor
  · rintro rfl; exact hsound
  · intro h
    cases v with
    | nan => exact hword ((special_iff s _).2 (Or.inl ⟨rfl, h⟩))
    | inf neg => exact hword ((special_iff s _).2 (Or.inr ⟨neg, rfl, h⟩))
    | num neg X =>
      obtain ⟨hex, M, E, hN, hX, hlt⟩ := h
      rw [hsome hN, finite_eq]
      dsimp only
      have := nearest_unique hX (hnear hex M E)
      rw [← this, if_pos hlt]
    | bad =>
      obtain ⟨hn, hi, h⟩ := h
      cases hp : parse F s with
      | bad => rfl
      | nan => rw [hp] at hsound; exact absurd hsound hn
      | inf neg => rw [hp] at hsound; exact absurd hsound (hi neg)
      | num neg X =>
        rw [hp] at hsound
        obtain ⟨hex, M, E, hN, hX, hlt⟩ := hsound
        obtain ⟨Y, hY, hge⟩ := h neg hex M E hN
        have := nearest_unique hX hY
        omega

/-- What a field that had the value `cur` gets from a text that is no integer: the conversion of a number that is whole, and nothing from
one that is not. -/
def Gets (P : Machine) (F : Format) (s : Bytes) (cur v : Int) : Prop :=
  (NotANumber s ∧ v = cur) ∨ (∃ neg, Infinity s neg ∧ v = P.inf neg) ∨
  ∃ neg hex M E X, Number s neg hex M E ∧ Nearest F.bits (scaled F.unit hex M E).1 (scaled F.unit hex M E).2 X ∧ X < 2 ^ (F.top + F.unit) ∧
    ((∃ k : Nat, X = k * 2 ^ F.unit ∧ v = P.int64 (if neg then -(k : Int) else k)) ∨ (¬ 2 ^ F.unit ∣ X ∧ v = cur))

theorem gets_iff (P : Machine) (F : Format) (hF : 0 < F.bits) (s : Bytes) (cur v : Int) :
    (P.result F (parse F s) = .whole v ∨ (P.result F (parse F s) = .fraction ∧ v = cur)) ↔ Gets P F s cur v := by
  have hp := parse_iff F hF s
  unfold Gets
  constructor
  · intro h
    have hr := (hp _).1 rfl
    cases hv : parse F s with
    | bad => rw [hv] at h; simp [Machine.result] at h
    | nan =>
      rw [hv] at h hr
      refine Or.inl ⟨hr, ?_⟩
      rcases h with h | ⟨_, h⟩
      · cases h
      · exact h
    | inf neg =>
      rw [hv] at h hr
      refine Or.inr (Or.inl ⟨neg, hr, ?_⟩)
      rcases h with h | ⟨h, _⟩
      · injection h with h; exact h.symm
      · cases h
    | num neg X =>
      rw [hv] at h hr
      obtain ⟨hex, M, E, h1, h2, h3⟩ := hr
      refine Or.inr (Or.inr ⟨neg, hex, M, E, X, h1, h2, h3, ?_⟩)
      simp only [Machine.result] at h
      by_cases hx : X % 2 ^ F.unit = 0
      · rw [if_pos hx] at h
        rcases h with h | ⟨h, _⟩
        · injection h with h
          exact Or.inl ⟨X / 2 ^ F.unit, (Nat.div_mul_cancel (Nat.dvd_of_mod_eq_zero hx)).symm, h.symm⟩
        · cases h
      · rw [if_neg hx] at h
        rcases h with h | ⟨_, h⟩
        · cases h
        · exact Or.inr ⟨fun hd => hx (Nat.mod_eq_zero_of_dvd hd), h⟩
  · rintro (⟨h, rfl⟩ | ⟨neg, h, rfl⟩ | ⟨neg, hex, M, E, X, h1, h2, h3, h4⟩)
    · rw [(hp .nan).2 h]; exact Or.inr ⟨rfl, rfl⟩
    · rw [(hp (.inf neg)).2 h]; exact Or.inl rfl
    · rw [(hp (.num neg X)).2 ⟨hex, M, E, h1, h2, h3⟩]
      simp only [Machine.result]
      rcases h4 with ⟨k, rfl, rfl⟩ | ⟨h4, rfl⟩
      · have h5 : k * 2 ^ F.unit % 2 ^ F.unit = 0 := Nat.mul_mod_left k (2 ^ F.unit)
        have h6 : k * 2 ^ F.unit / 2 ^ F.unit = k := Nat.mul_div_cancel k (Nat.two_pow_pos F.unit)
        rw [if_pos h5, h6]
        exact Or.inl rfl
      · rw [if_neg (fun h => h4 (Nat.dvd_of_mod_eq_zero h))]
        exact Or.inr ⟨rfl, rfl⟩

/-- **Integer fields.**  Exactly what texts an integer field accepts and what value it then has: nothing is zero, a decimal integer that fits
is itself, and every other text goes through floating point. -/
theorem integer_field (P : Machine) (s : Bytes) (cur v : Int) :
    (if s.length = 0 then Res.ok (0 : Int) else @unmarshalInt P.float64 s cur) = .ok v ↔
      if s = [] then v = 0
      else (Spec.SignedNumeral s v ∧ -(2 ^ 63 : Int) ≤ v ∧ v < 2 ^ 63) ∨
        ((¬ ∃ n, Spec.SignedNumeral s n ∧ -(2 ^ 63 : Int) ≤ n ∧ n < 2 ^ 63) ∧ Gets P f64 s cur v) := by
  rw [@readsInt_iff P.float64]
  unfold Spec.AdcWire.ReadsInt
  rw [← gets_iff P f64 (by decide)]
  exact Iff.rfl

theorem scaled_unit (u : Nat) (hex : Bool) (M : Nat) (E : Int) :
    (scaled u hex M E).1 = (scaled 0 hex M E).1 * 2 ^ u ∧ (scaled u hex M E).2 = (scaled 0 hex M E).2 := by
  unfold scaled
  split <;> simp

/-- **Whole numbers.**  A text for a whole number with few enough bits, in whatever notation, is read as this number. -/
theorem whole_exact (P : Machine) (F : Format) (hF : 0 < F.bits) (ht : 63 ≤ F.top) {s : Bytes} {neg hex : Bool} {M : Nat} {E : Int}
    (h : Number s neg hex M E) (k : Nat) (hk : (scaled 0 hex M E).1 = k * (scaled 0 hex M E).2) (hb : Has F.bits k) (h63 : k < 2 ^ 63) :
    P.result F (parse F s) = .whole (if neg then -(k : Int) else k) := by
  have h1 := scaled_unit F.unit hex M E
  have hX : Has F.bits (k * 2 ^ F.unit) := by
    obtain ⟨m, e, hm, rfl⟩ := hb
    exact ⟨m, e + F.unit, hm, by rw [Nat.pow_add, Nat.mul_assoc]⟩
  have hN : Nearest F.bits (scaled F.unit hex M E).1 (scaled F.unit hex M E).2 (k * 2 ^ F.unit) := by
    have := nearest_self (scaled_pos 0 hex M E) hX
    rw [h1.1, h1.2, hk]
    have e : k * (scaled 0 hex M E).2 * 2 ^ F.unit = k * 2 ^ F.unit * (scaled 0 hex M E).2 := by
      rw [Nat.mul_assoc, Nat.mul_comm _ (2 ^ F.unit), ← Nat.mul_assoc]
    rw [e]; exact this
  have hlt : k * 2 ^ F.unit < 2 ^ (F.top + F.unit) := by
    rw [Nat.pow_add]
    exact Nat.mul_lt_mul_of_pos_right (Nat.lt_of_lt_of_le h63 (Nat.pow_le_pow_right (by decide) ht)) (Nat.two_pow_pos _)
  rw [(parse_iff F hF s (.num neg (k * 2 ^ F.unit))).2 ⟨hex, M, E, h, hN, hlt⟩]
  simp only [Machine.result]
  rw [if_pos (Nat.mul_mod_left ..), Nat.mul_div_cancel _ (Nat.two_pow_pos _)]
  unfold Machine.int64
  rw [if_pos]
  cases neg
  · simp; omega
  · simp; omega

/-- **Fractions.**  A text for a binary fraction with few enough bits is not read as a whole number, and leaves the field as it was. -/
theorem fraction_exact (P : Machine) (F : Format) (hF : 0 < F.bits) (ht : F.bits ≤ F.top) {s : Bytes} {neg hex : Bool} {M : Nat} {E : Int}
    (h : Number s neg hex M E) (k j : Nat) (hj : j ≤ F.unit) (hk : (scaled 0 hex M E).1 * 2 ^ j = k * (scaled 0 hex M E).2)
    (hb : k < 2 ^ F.bits) (hnot : ¬ 2 ^ j ∣ k) : P.result F (parse F s) = .fraction := by
  have h1 := scaled_unit F.unit hex M E
  have hu : 2 ^ F.unit = 2 ^ j * 2 ^ (F.unit - j) := by rw [← Nat.pow_add]; congr 1; omega
  have hN : Nearest F.bits (scaled F.unit hex M E).1 (scaled F.unit hex M E).2 (k * 2 ^ (F.unit - j)) := by
    have := nearest_self (bits := F.bits) (scaled_pos 0 hex M E) ⟨k, F.unit - j, hb, rfl⟩
    rw [h1.1, h1.2, hu, ← Nat.mul_assoc, hk]
    have e : k * (scaled 0 hex M E).2 * 2 ^ (F.unit - j) = k * 2 ^ (F.unit - j) * (scaled 0 hex M E).2 := by
      rw [Nat.mul_assoc, Nat.mul_comm _ (2 ^ (F.unit - j)), ← Nat.mul_assoc]
    rw [e]; exact this
  have hlt : k * 2 ^ (F.unit - j) < 2 ^ (F.top + F.unit) := by
    rw [Nat.pow_add]
    refine Nat.lt_of_lt_of_le (Nat.mul_lt_mul_of_pos_right hb (Nat.two_pow_pos _)) ?_
    exact Nat.mul_le_mul (Nat.pow_le_pow_right (by decide) ht) (Nat.pow_le_pow_right (by decide) (Nat.sub_le ..))
  rw [(parse_iff F hF s (.num neg (k * 2 ^ (F.unit - j)))).2 ⟨hex, M, E, h, hN, hlt⟩]
  simp only [Machine.result]
  rw [if_neg]
  intro h0
  rw [hu] at h0
  exact hnot (Nat.dvd_of_mul_dvd_mul_right (Nat.two_pow_pos _) (Nat.dvd_of_mod_eq_zero h0))

/-- A machine whose conversions give numbers of 64 bits. -/
def Sound (P : Machine) : Prop := (∀ v, -(2 ^ 63 : Int) ≤ P.big v ∧ P.big v < 2 ^ 63) ∧ ∀ neg, -(2 ^ 63 : Int) ≤ P.inf neg ∧ P.inf neg < 2 ^ 63

theorem amd64_sound : Sound amd64 := by
  exact ⟨fun v => by show -(2 ^ 63 : Int) ≤ -(2 ^ 63) ∧ -(2 ^ 63 : Int) < 2 ^ 63; decide, fun neg => by cases neg <;> decide⟩

theorem arm64_sound : Sound arm64 := by
  refine ⟨fun v => ?_, fun neg => ?_⟩
  · show _ ≤ (if v < 0 then -(2 ^ 63 : Int) else 2 ^ 63 - 1) ∧ (if v < 0 then -(2 ^ 63 : Int) else 2 ^ 63 - 1) < _
    split <;> decide
  · cases neg <;> decide

/-- What is read fits. -/
theorem result_fits {P : Machine} (hP : Sound P) (F : Format) (x : Value) (v : Int) (h : P.result F x = .whole v) :
    -(2 ^ 63 : Int) ≤ v ∧ v < 2 ^ 63 := by
  cases x with
  | bad => cases h
  | nan => cases h
  | inf neg => injection h with h; rw [← h]; exact hP.2 neg
  | num neg X =>
    simp only [Machine.result] at h
    split at h
    · injection h with h
      rw [← h]
      unfold Machine.int64
      generalize (if neg = true then -((X / 2 ^ F.unit : Nat) : Int) else ((X / 2 ^ F.unit : Nat) : Int)) = w
      split
      · assumption
      · exact hP.1 _
    · cases h

/-- What was received can be sent and is received as the same (`AdcBack.received_again`), with the numbers of the machine. -/
theorem received_again_real {P : Machine} (hP : Sound P) (name : MsgType) (data : Bytes) (m : Msg)
    (h : @unmarshalMessage P.float64 name data = .ok m) (h1 : name.bytes ≠ b!"STA") (h2 : name.bytes ≠ b!"SUP") :
    ∃ b, m.marshal = .ok b ∧ @unmarshalMessage P.float64 name b = .ok m :=
  @AdcBack.received_again P.float64 (fun _ v hv => result_fits hP f64 _ v hv) name data m h h1 h2

/-- The structs of the library in the decoder of a caller (`AdcOwn.library_messages`), with the numbers of the machine. -/
theorem library_messages_real {P : Machine} (hP : Sound P) (t : StructType) (row : Row t.fields) (s : Bytes) :
    @Target.unmarshal P.float64 P.float32 s (Target.struct (@AdcOwn.cells P.float64 t.fields row)) =
      (.struct (@AdcOwn.cells P.float64 t.fields (@fillRow P.float64 t.fields s row).1), (@fillRow P.float64 t.fields s row).2) :=
  @AdcOwn.library_messages P.float64 P.float32 (fun _ v hv => result_fits hP f64 _ v hv) t row s

/-! ## Cases -/

/-- `1.5e3` is a number, 15 times a power of ten. -/
theorem number_1500 : Number b!"1.5e3" false false 15 2 := (readFloat_iff _ _ _ _ _).1 (by decide +kernel)

/-- The hypotheses of `whole_exact` are met by it, and it is read as 1500. -/
example : amd64.result f64 (parse f64 b!"1.5e3") = .whole 1500 :=
  whole_exact amd64 f64 (by decide) (by decide) number_1500 1500 (by decide) ⟨1500, 0, by decide, rfl⟩ (by decide)

/-- Hexadecimal notation, with an underscore. -/
theorem number_hex : Number b!"-0x_1F.8p1" true true 504 (-3) := (readFloat_iff _ _ _ _ _).1 (by decide +kernel)

example : arm64.result f32 (parse f32 b!"-0x_1F.8p1") = .whole (-63) :=
  whole_exact arm64 f32 (by decide) (by decide) number_hex 63 (by decide) ⟨63, 0, by decide, rfl⟩ (by decide)

/-- The hypotheses of `fraction_exact` are met by `2.25`. -/
example : amd64.result f64 (parse f64 b!"2.25") = .fraction :=
  fraction_exact amd64 f64 (by decide) (by decide) ((readFloat_iff _ false false 225 (-2)).1 (by decide +kernel)) 9 2 (by decide) (by decide)
    (by decide) (by decide)

/-- What an integer field of the library gets on amd64. -/
def field (s : Bytes) (cur : Int) : Res Int := @unmarshalInt amd64.float64 s cur

/-- The value, if the text is accepted. -/
def given : Res Int → Option Int
  | .ok v => some v
  | _ => none

/-- Underscores must be between digits, and hexadecimal notation must have an exponent. -/
example : field b!"1_000.0" 7 = .ok 1000 ∧ given (field b!"1__000.0" 7) = none ∧ given (field b!"0x10" 7) = none ∧ field b!"0x10p0" 7 = .ok 16 ∧
    given (field b!"1e" 7) = none ∧ given (field b!"1e400" 7) = none ∧ field b!"1e-400" 7 = .ok 0 := by decide +kernel

/-- **Finding.**  A positive number that does not fit is not refused: on amd64 the field becomes negative. -/
theorem overflow_accepted : field b!"9223372036854775808" 0 = .ok (-9223372036854775808) ∧ field b!"1e300" 0 = .ok (-9223372036854775808) ∧
    field b!"Infinity" 0 = .ok (-9223372036854775808) := by decide +kernel

/-- **Finding.**  Two machines read the same text as different numbers. -/
theorem machines_differ : @unmarshalInt amd64.float64 b!"9223372036854775808" 0 ≠ @unmarshalInt arm64.float64 b!"9223372036854775808" 0 := by
  decide +kernel

/-- **Finding.**  Large numbers lose their last digits, and what is nearly whole is taken for whole. -/
theorem digits_lost : field b!"9007199254740993.0" 0 = .ok 9007199254740992 ∧ field b!"0.99999999999999999" 0 = .ok 1 ∧
    field b!"9007199254740993" 0 = .ok 9007199254740993 := by decide +kernel

/-- **Finding.**  Not a number is accepted, and leaves the old value. -/
theorem nan_accepted : field b!"NaN" 7 = .ok 7 ∧ field b!"2.5" 7 = .ok 7 := by decide +kernel

/-- Numbers with at most 53 bits are exact in 64 bits, and those with at most 24 bits in 32 bits. -/
theorem exact_whole (P : Machine) {s : Bytes} {neg : Bool} {M : Nat} (h : Number s neg false M 0) :
    (M < 2 ^ 53 → P.result f64 (parse f64 s) = .whole (if neg then -M else M)) ∧
    (M < 2 ^ 24 → P.result f32 (parse f32 s) = .whole (if neg then -M else M)) := by
  have hs : (scaled 0 false M 0).1 = M * (scaled 0 false M 0).2 := by simp [scaled]
  exact ⟨fun hM => whole_exact P f64 (by decide) (by decide) h M hs ⟨M, 0, hM, by simp⟩ (by omega),
    fun hM => whole_exact P f32 (by decide) (by decide) h M hs ⟨M, 0, hM, by simp⟩ (by omega)⟩

example : Number b!"-9007199254740991" true false 9007199254740991 0 := (readFloat_iff _ _ _ _ _).1 (by decide +kernel)

/-- That is all: the next numbers are not exact.  The largest number of the format is accepted, and what is nearer to the next power of 2 is not. -/
theorem formats : parse f64 b!"9007199254740993" = .num false (2 ^ 53 * 2 ^ 1074) ∧ parse f32 b!"16777217" = .num false (2 ^ 24 * 2 ^ 149) ∧
    parse f64 b!"1.7976931348623158e308" = .num false ((2 ^ 53 - 1) * 2 ^ 971 * 2 ^ 1074) ∧ parse f64 b!"1.7976931348623159e308" = .bad ∧
    parse f32 b!"3.40282356e38" = .num false ((2 ^ 24 - 1) * 2 ^ 104 * 2 ^ 149) ∧ parse f32 b!"3.4028236e38" = .bad ∧
    parse f64 b!"5e-324" = .num false 1 ∧ parse f64 b!"2e-324" = .num false 0 ∧ parse f32 b!"1e-45" = .num false 1 ∧
    parse f32 b!"7e-46" = .num false 0 := by decide +kernel

end Verif.Props.AdcFloats
