import Verif.Go.Float
import Verif.Spec.Float
import Verif.Go.Basic

/-! # The notation of numbers without underscores -/

namespace Verif.Go.Float

open Verif.Spec.Float

instance (hex : Bool) (c : Byte) : Decidable (Digit hex c) := by unfold Digit; infer_instance

theorem digit_eq (hex : Bool) (c : Byte) : digit hex c = if Digit hex c then some (digitVal c) else none := by
  revert c; apply forall_byte; cases hex <;> decide +kernel

theorem digit_some {hex : Bool} {c : Byte} (h : Digit hex c) : digit hex c = some (digitVal c) := by
  rw [digit_eq, if_pos h]

theorem digit_none {hex : Bool} {c : Byte} (h : ¬ Digit hex c) : digit hex c = none := by
  rw [digit_eq, if_neg h]

theorem of_digit_some {hex : Bool} {c : Byte} {d : Nat} (h : digit hex c = some d) : Digit hex c ∧ d = digitVal c := by
  rw [digit_eq] at h
  split at h
  · rename_i h'; exact ⟨h', by simpa using h.symm⟩
  · cases h

theorem digit_plain : ∀ (hex : Bool) (c : Byte), Digit hex c → c ≠ c!"_" ∧ c ≠ c!"." ∧ c ≠ c!"+" ∧ c ≠ c!"-" ∧ lower c ≠ c!"x" ∧ lower c ≠ c!"p" := by
  intro hex; apply forall_byte; cases hex <;> decide +kernel

theorem digit_not_e : ∀ c : Byte, Digit false c → lower c ≠ c!"e" := by
  apply forall_byte; decide +kernel

theorem lower_x : ∀ c : Byte, lower c = c!"x" ↔ c = c!"x" ∨ c = c!"X" := by
  apply forall_byte; decide +kernel

theorem lower_p : ∀ c : Byte, lower c = c!"p" ↔ c = c!"p" ∨ c = c!"P" := by
  apply forall_byte; decide +kernel

theorem lower_e : ∀ c : Byte, lower c = c!"e" ↔ c = c!"e" ∨ c = c!"E" := by
  apply forall_byte; decide +kernel

/-- The letter of the exponent is no digit. -/
theorem letter_digit (hex : Bool) (c : Byte) (h : lower c = (if hex then c!"p" else c!"e")) : ¬ Digit hex c ∧ c ≠ c!"_" ∧ c ≠ c!"." := by
  revert c; apply forall_byte; cases hex <;> decide +kernel

/-- `readFloat` without the test of the underscores. -/
def core (s : Bytes) : Option Parts :=
  let t := (sign s).2
  let hex := decide (2 < t.length) && hexPrefix t
  let m := mant hex false (if hex then t.drop 2 else t)
  if m.1 = [] then none
  else
    match tail hex m.2.2 with
    | none => none
    | some e => some ⟨(sign s).1, value (if hex then 16 else 10) m.1, hex, if hex then e - 4 * m.2.1 else e - m.2.1⟩

theorem readFloat_core (s : Bytes) : readFloat s = if c!"_" ∈ s ∧ underscoreOK s = false then none else core s := by
  unfold readFloat core
  generalize sign s = p
  obtain ⟨neg, t⟩ := p
  dsimp only
  generalize mant _ false _ = q
  obtain ⟨ds, k, r⟩ := q
  dsimp only
  split
  · simp
  · cases tail _ r with
    | none => simp
    | some e => rfl

theorem sign_parts (s : Bytes) : ∃ sg, Sign (sign s).1 sg ∧ s = sg ++ (sign s).2 := by
  unfold sign
  split
  · rename_i c s'
    split
    · rename_i h; exact ⟨b!"+", Or.inl ⟨rfl, Or.inr rfl⟩, by rw [h]; rfl⟩
    · split
      · rename_i h; exact ⟨b!"-", Or.inr ⟨rfl, rfl⟩, by rw [h]; rfl⟩
      · exact ⟨[], Or.inl ⟨rfl, Or.inl rfl⟩, rfl⟩
  · exact ⟨[], Or.inl ⟨rfl, Or.inl rfl⟩, rfl⟩

theorem sign_append {neg : Bool} {sg t : Bytes} (h : Sign neg sg) (ht : ∀ c ∈ t.head?, c ≠ c!"+" ∧ c ≠ c!"-") : sign (sg ++ t) = (neg, t) := by
  rcases h with ⟨rfl, rfl | rfl⟩ | ⟨rfl, rfl⟩
  · cases t with
    | nil => rfl
    | cons c t =>
      have := ht c (by simp)
      simp [sign, this.1, this.2]
  · rfl
  · rfl

theorem mant_digits (hex dot : Bool) : ∀ (ds : Bytes) (r : Bytes), (∀ c ∈ ds, Digit hex c) →
    mant hex dot (ds ++ r) = (ds.map digitVal ++ (mant hex dot r).1, (if dot then ds.length else 0) + (mant hex dot r).2.1, (mant hex dot r).2.2)
  | [], r, _ => by cases dot <;> simp
  | c :: ds, r, h => by
    have hc := h c (by simp)
    have hp := digit_plain hex c hc
    rw [List.cons_append, mant, if_neg hp.1, if_neg hp.2.1, digit_some hc]
    dsimp only
    rw [mant_digits hex dot ds r (fun x hx => h x (by simp [hx]))]
    cases dot <;> simp <;> omega

theorem mant_stop (hex dot : Bool) (r : Bytes) (h : ∀ c ∈ r.head?, ¬ Digit hex c ∧ c ≠ c!"_" ∧ c ≠ c!".") : mant hex dot r = ([], 0, r) := by
  cases r with
  | nil => rfl
  | cons c r =>
    have := h c (by simp)
    rw [mant, if_neg this.2.1, if_neg this.2.2, digit_none this.1]

/-- What the loop over the mantissa has passed, when there are no underscores. -/
theorem mant_dot (hex : Bool) : ∀ s : Bytes, c!"_" ∉ s → ∃ fp, s = fp ++ (mant hex true s).2.2 ∧ (∀ c ∈ fp, Digit hex c) ∧
    (mant hex true s).1 = fp.map digitVal ∧ (mant hex true s).2.1 = fp.length
  | [], _ => ⟨[], by simp [mant]⟩
  | c :: s, hu => by
    have hc : c ≠ c!"_" := fun h => hu (by simp [h])
    have hs : c!"_" ∉ s := fun h => hu (by simp [h])
    rw [mant, if_neg hc]
    split
    · exact ⟨[], by simp⟩
    · cases hd : digit hex c with
      | none => exact ⟨[], by simp⟩
      | some d =>
        obtain ⟨hdig, rfl⟩ := of_digit_some hd
        obtain ⟨fp, h1, h2, h3, h4⟩ := mant_dot hex s hs
        refine ⟨c :: fp, ?_, ?_, ?_, ?_⟩
        · simp only [List.cons_append]; rw [← h1]
        · intro x hx; rcases List.mem_cons.1 hx with rfl | hx
          · exact hdig
          · exact h2 x hx
        · simp [h3]
        · simp [h4]; omega

theorem mant_parts (hex : Bool) : ∀ s : Bytes, c!"_" ∉ s → ∃ ip pt fp, s = ip ++ (pt ++ (fp ++ (mant hex false s).2.2)) ∧ (∀ c ∈ ip ++ fp, Digit hex c) ∧
    (pt = b!"." ∨ (pt = [] ∧ fp = [])) ∧ (mant hex false s).1 = (ip ++ fp).map digitVal ∧ (mant hex false s).2.1 = fp.length
  | [], _ => ⟨[], [], [], by simp [mant]⟩
  | c :: s, hu => by
    have hc : c ≠ c!"_" := fun h => hu (by simp [h])
    have hs : c!"_" ∉ s := fun h => hu (by simp [h])
    rw [mant, if_neg hc]
    split
    · rename_i hdot
      obtain ⟨fp, h1, h2, h3, h4⟩ := mant_dot hex s hs
      refine ⟨[], b!".", fp, ?_, by simpa using h2, Or.inl rfl, by simpa using h3, by simpa using h4⟩
      rw [hdot]
      simp only [Bool.false_eq_true, if_false]
      rw [← h1]; rfl
    · cases hd : digit hex c with
      | none => exact ⟨[], [], [], by simp⟩
      | some d =>
        obtain ⟨hdig, rfl⟩ := of_digit_some hd
        obtain ⟨ip, pt, fp, h1, h2, h3, h4, h5⟩ := mant_parts hex s hs
        refine ⟨c :: ip, pt, fp, ?_, ?_, h3, ?_, ?_⟩
        · simp only [List.cons_append]; rw [← h1]
        · intro x hx
          rw [List.cons_append] at hx
          rcases List.mem_cons.1 hx with rfl | hx
          · exact hdig
          · exact h2 x hx
        · simp only [h4, List.cons_append, List.map_cons]
        · simpa using h5

theorem expLoop_digits : ∀ (ds : Bytes) (e : Nat), (∀ c ∈ ds, Digit false c) →
    expLoop e ds = ((ds.map digitVal).foldl (fun e d => if e < 10000 then e * 10 + d else e) e, [])
  | [], e, _ => rfl
  | c :: ds, e, h => by
    have hc := h c (by simp)
    rw [expLoop, if_neg (digit_plain false c hc).1, digit_some hc]
    dsimp only
    rw [expLoop_digits ds _ (fun x hx => h x (by simp [hx]))]
    rfl

theorem expLoop_parts : ∀ (s : Bytes) (e : Nat), c!"_" ∉ s → (expLoop e s).2 = [] → ∀ c ∈ s, Digit false c
  | [], _, _, _ => by simp
  | c :: s, e, hu, h => by
    have hc : c ≠ c!"_" := fun h => hu (by simp [h])
    have hs : c!"_" ∉ s := fun h => hu (by simp [h])
    rw [expLoop, if_neg hc] at h
    cases hd : digit false c with
    | none => rw [hd] at h; simp at h
    | some d =>
      rw [hd] at h
      intro x hx
      rcases List.mem_cons.1 hx with rfl | hx
      · exact (of_digit_some hd).1
      · exact expLoop_parts s _ hs h x hx

/-- The exponent. -/
theorem expo_iff (s : Bytes) (hu : c!"_" ∉ s) (e : Int) : expo s = some e ↔
    ∃ sg neg ds, s = sg ++ ds ∧ Sign neg sg ∧ ds ≠ [] ∧ (∀ x ∈ ds, Digit false x) ∧
      e = (if neg then -(exponent (ds.map digitVal) : Int) else exponent (ds.map digitVal)) := by
  constructor
  · intro h
    obtain ⟨sg, h1, h2⟩ := sign_parts s
    unfold expo at h
    cases ht : (sign s).2 with
    | nil => rw [ht] at h; cases h
    | cons c t =>
      rw [ht] at h
      dsimp only at h
      split at h
      · cases h
      · split at h
        · cases h
        · rename_i h3
          rw [ht] at h2
          have hu' : c!"_" ∉ c :: t := fun hx => hu (by rw [h2]; exact List.mem_append_right _ hx)
          have hds := expLoop_parts (c :: t) 0 hu' (by simpa using h3)
          refine ⟨sg, _, c :: t, h2, h1, by simp, hds, ?_⟩
          rw [expLoop_digits _ _ hds] at h
          exact (Option.some.inj h).symm
  · rintro ⟨sg, neg, ds, rfl, hsg, hne, hds, rfl⟩
    cases ds with
    | nil => exact absurd rfl hne
    | cons c t =>
      have hc := hds c (by simp)
      have hp := digit_plain false c hc
      have hs : sign (sg ++ c :: t) = (neg, c :: t) := sign_append hsg (by simp [hp.2.2.1, hp.2.2.2.1])
      unfold expo
      rw [hs]
      dsimp only
      rw [if_neg (by rw [digit_some hc]; simp), expLoop_digits _ _ hds, if_neg (by simp)]
      rfl

theorem tail_iff (hex : Bool) (s : Bytes) (hu : c!"_" ∉ s) (e : Int) : tail hex s = some e ↔ Exponent hex s e := by
  unfold Exponent
  cases s with
  | nil =>
    cases hex
    · constructor
      · intro h; exact Or.inl ⟨rfl, rfl, (Option.some.inj h).symm⟩
      · rintro (⟨_, _, h⟩ | ⟨c, sg, neg, ds, h, _⟩)
        · rw [h]; rfl
        · cases h
    · simp [tail]
  | cons c r =>
    have hr : c!"_" ∉ r := fun h => hu (by simp [h])
    have hl : (lower c = (if hex then c!"p" else c!"e")) ↔ (if hex then c = c!"p" ∨ c = c!"P" else c = c!"e" ∨ c = c!"E") := by
      cases hex
      · simpa using lower_e c
      · simpa using lower_p c
    rw [tail]
    constructor
    · intro h
      by_cases hc : lower c = (if hex then c!"p" else c!"e")
      · rw [if_pos hc] at h
        obtain ⟨sg, neg, ds, h1, h2, h3, h4, h5⟩ := (expo_iff r hr e).1 h
        exact Or.inr ⟨c, sg, neg, ds, by rw [h1], hl.1 hc, h2, h3, h4, h5⟩
      · rw [if_neg hc] at h; cases h
    · rintro (⟨_, h, _⟩ | ⟨c', sg, neg, ds, h1, h2, h3, h4, h5, h6⟩)
      · cases h
      · injection h1 with ha hb
        subst ha
        rw [if_pos (hl.2 h2)]
        exact (expo_iff r hr e).2 ⟨sg, neg, ds, hb, h3, h4, h5, h6⟩

theorem exponent_head {hex : Bool} {ex : Bytes} {e : Int} (h : Exponent hex ex e) : ∀ c ∈ ex.head?, lower c = (if hex then c!"p" else c!"e") := by
  rcases h with ⟨_, rfl, _⟩ | ⟨c, sg, neg, ds, rfl, h, _⟩
  · simp
  · intro x hx
    have : x = c := by simpa using hx.symm
    subst this
    cases hex
    · simpa using (lower_e x).2 (by simpa using h)
    · simpa using (lower_p x).2 (by simpa using h)

theorem hexPrefix_iff (t : Bytes) : hexPrefix t = true ↔ ∃ r, t = b!"0x" ++ r ∨ t = b!"0X" ++ r := by
  match t with
  | [] => simp [hexPrefix]
  | [c] => simp [hexPrefix]
  | c :: x :: r =>
    simp only [hexPrefix, lower_x, decide_eq_true_eq]
    constructor
    · rintro ⟨rfl, rfl | rfl⟩
      · exact ⟨r, Or.inl rfl⟩
      · exact ⟨r, Or.inr rfl⟩
    · rintro ⟨r', h | h⟩ <;> · injection h with h1 h2; injection h2 with h3 h4; simp [h1, h3]

/-- A decimal number does not begin with `0x`. -/
theorem decimal_prefix {ip pt fp ex : Bytes} {e : Int} (hd : ∀ c ∈ ip ++ fp, Digit false c) (hpt : pt = b!"." ∨ (pt = [] ∧ fp = []))
    (hex : Exponent false ex e) : hexPrefix (ip ++ (pt ++ (fp ++ ex))) = false := by
  rw [Bool.eq_false_iff]
  intro h
  have hx : ∀ c ∈ ex.head?, lower c ≠ c!"x" := by
    intro c hc
    rw [exponent_head hex c hc]; decide
  match ip, hd, h with
  | [], _, h =>
    rcases hpt with rfl | ⟨rfl, rfl⟩
    · have h' : hexPrefix (c!"." :: (fp ++ ex)) = true := h
      cases hh : (fp ++ ex) with
      | nil => rw [hh] at h'; cases h'
      | cons x r => rw [hh] at h'; simp [hexPrefix] at h'
    · match ex, hex, h with
      | [], _, h => simp [hexPrefix] at h
      | [c], _, h => simp [hexPrefix] at h
      | c :: x :: r, hex, h =>
        have := exponent_head hex c (by simp)
        simp only [List.nil_append, hexPrefix, decide_eq_true_eq] at h
        rw [h.1] at this
        revert this; decide
  | [c], _, h =>
    rcases hpt with rfl | ⟨rfl, rfl⟩
    · have h' : hexPrefix (c :: c!"." :: (fp ++ ex)) = true := h
      simp only [hexPrefix, decide_eq_true_eq] at h'
      exact absurd h'.2 (by decide)
    · match ex, h, hx with
      | [], h, _ => simp [hexPrefix] at h
      | x :: r, h, hx =>
        simp only [List.nil_append, List.cons_append, hexPrefix, decide_eq_true_eq] at h
        exact hx x (by simp) h.2
  | c :: x :: r, hd, h =>
    simp only [List.cons_append, hexPrefix, decide_eq_true_eq] at h
    exact (digit_plain false x (hd x (by simp))).2.2.2.2.1 h.2

theorem value_eq (b : Nat) (ds : List Nat) : value b ds = Spec.Base32.number b ds := rfl

/-- The notation without underscores. -/
theorem plain_iff (s : Bytes) (hu : c!"_" ∉ s) (neg hex : Bool) (M : Nat) (E : Int) : core s = some ⟨neg, M, hex, E⟩ ↔ Plain s neg hex M E := by
  constructor
  · intro h
    obtain ⟨sg, hsg, hs⟩ := sign_parts s
    unfold core at h
    dsimp only at h
    generalize ht : (sign s).2 = t at *
    generalize hn : (sign s).1 = n at *
    have hut : c!"_" ∉ t := fun hx => hu (by rw [hs]; exact List.mem_append_right _ hx)
    generalize hh : (decide (2 < t.length) && hexPrefix t) = hx at *
    have hpre : ∃ pre, t = pre ++ (if hx then t.drop 2 else t) ∧ (if hx then pre = b!"0x" ∨ pre = b!"0X" else pre = []) := by
      cases hx
      · exact ⟨[], by simp⟩
      · have : hexPrefix t = true := by
          revert hh; cases hexPrefix t <;> simp
        obtain ⟨r, h | h⟩ := (hexPrefix_iff t).1 this
        · exact ⟨b!"0x", by rw [h]; rfl, Or.inl rfl⟩
        · exact ⟨b!"0X", by rw [h]; rfl, Or.inr rfl⟩
    obtain ⟨pre, hp1, hp2⟩ := hpre
    generalize hv : (if hx then t.drop 2 else t) = u at *
    have huu : c!"_" ∉ u := fun h' => hut (by rw [hp1]; exact List.mem_append_right _ h')
    obtain ⟨ip, pt, fp, h1, h2, h3, h4, h5⟩ := mant_parts hx u huu
    split at h
    · cases h
    · rename_i hne
      cases hta : tail hx (mant hx false u).2.2 with
      | none => rw [hta] at h; cases h
      | some e =>
        rw [hta] at h
        injection h with h
        injection h with ha hb hc hd
        subst hc
        have hur : c!"_" ∉ (mant hx false u).2.2 := fun h' => huu (by rw [h1]; simp only [List.mem_append]; exact Or.inr (Or.inr (Or.inr h')))
        refine ⟨sg, pre, ip, pt, fp, _, e, ?_, ?_, hp2, h2, ?_, h3, (tail_iff hx _ hur e).1 hta, ?_, ?_⟩
        · rw [hs, hp1]
          congr 2
        · rw [← ha]; exact hsg
        · intro h'; rw [h4, h'] at hne; exact hne rfl
        · rw [← hb, h4]; rfl
        · rw [← hd, h5]; cases hx <;> simp
  · rintro ⟨sg, pre, ip, pt, fp, ex, e, rfl, hsg, hpre, hd, hne, hpt, hE, rfl, rfl⟩
    have huex : c!"_" ∉ ex := fun h => hu (by simp only [List.mem_append]; exact Or.inr (Or.inr (Or.inr (Or.inr (Or.inr h)))))
    have hstop : ∀ c ∈ ex.head?, ¬ Digit hex c ∧ c ≠ c!"_" ∧ c ≠ c!"." := fun c hc => letter_digit hex c (exponent_head hE c hc)
    have hm : mant hex false (ip ++ (pt ++ (fp ++ ex))) = ((ip ++ fp).map digitVal, fp.length, ex) := by
      rw [mant_digits hex false ip _ (fun c hc => hd c (by simp [hc]))]
      have hfp : ∀ c ∈ fp, Digit hex c := fun c hc => hd c (by simp [hc])
      rcases hpt with rfl | ⟨rfl, rfl⟩
      · have : mant hex false (b!"." ++ (fp ++ ex)) = mant hex true (fp ++ ex) := rfl
        rw [this, mant_digits hex true fp _ hfp, mant_stop hex true ex hstop]
        simp
      · simp only [List.nil_append]
        rw [mant_stop hex false ex hstop]
        simp
    have hhead : ∀ c ∈ (pre ++ (ip ++ (pt ++ (fp ++ ex)))).head?, c ≠ c!"+" ∧ c ≠ c!"-" := by
      cases hex
      · have hpre' : pre = [] := by simpa using hpre
        subst hpre'
        cases ip with
        | nil =>
          rcases hpt with rfl | ⟨rfl, rfl⟩
          · intro c hc
            have : c = c!"." := by simpa using hc.symm
            subst this; decide
          · exact absurd rfl hne
        | cons c ip =>
          intro c' hc'
          have : c' = c := by simpa using hc'.symm
          subst this
          have := digit_plain false c' (hd c' (by simp))
          exact ⟨this.2.2.1, this.2.2.2.1⟩
      · have hpre' : pre = b!"0x" ∨ pre = b!"0X" := by simpa using hpre
        rcases hpre' with rfl | rfl <;>
        · intro c hc
          have : c = c!"0" := by simpa using hc.symm
          subst this; decide
    have hsn := sign_append hsg hhead
    have hflag : (decide (2 < (pre ++ (ip ++ (pt ++ (fp ++ ex)))).length) && hexPrefix (pre ++ (ip ++ (pt ++ (fp ++ ex))))) = hex := by
      cases hex
      · have hpre' : pre = [] := by simpa using hpre
        subst hpre'
        rw [List.nil_append, decimal_prefix hd hpt hE, Bool.and_false]
      · have hpre' : pre = b!"0x" ∨ pre = b!"0X" := by simpa using hpre
        have hl : 0 < ip.length + fp.length := by
          rw [← List.length_append]; exact List.length_pos_iff.2 hne
        rw [Bool.and_eq_true]
        refine ⟨?_, (hexPrefix_iff _).2 ⟨ip ++ (pt ++ (fp ++ ex)), ?_⟩⟩
        · simp only [List.length_append, decide_eq_true_eq]
          rcases hpre' with rfl | rfl <;> simp <;> omega
        · rcases hpre' with rfl | rfl
          · exact Or.inl rfl
          · exact Or.inr rfl
    have hdrop : (if hex then (pre ++ (ip ++ (pt ++ (fp ++ ex)))).drop 2 else pre ++ (ip ++ (pt ++ (fp ++ ex)))) = ip ++ (pt ++ (fp ++ ex)) := by
      cases hex
      · have hpre' : pre = [] := by simpa using hpre
        subst hpre'; rfl
      · have hpre' : pre = b!"0x" ∨ pre = b!"0X" := by simpa using hpre
        rcases hpre' with rfl | rfl <;> rfl
    unfold core
    rw [hsn]
    dsimp only
    rw [hflag, hdrop, hm]
    dsimp only
    rw [if_neg (by simpa using hne), (tail_iff hex ex huex e).2 hE]
    dsimp only
    rw [value_eq]
    cases hex <;> simp

end Verif.Go.Float
