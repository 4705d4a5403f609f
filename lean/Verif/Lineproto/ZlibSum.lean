import Verif.Lineproto.ZlibLaw

/-!
# A stream is complete only with the right checksum
-/

namespace Verif.Lineproto

open Verif.Go.Inflate Verif.Go.Deflate

/-- The checksum is being read, or has been read. -/
def Late (s : St) : Prop :=
  match s.mode with
  | .num _ _ _ (.sum _ _) => True
  | .done => True
  | _ => False

/-- The rest of a byte that is skipped before the checksum ends with the byte. -/
def SkipOk (s : St) : Prop :=
  match s.mode with
  | .num l _ _ .skipSum => 1 ≤ l ∧ (s.pos + l) % 8 = 0
  | _ => True

/-- What can be after a bit when the checksum has not begun. -/
def Next (s : St) : Prop := SkipOk s ∧ (Late s → s.pos % 8 = 0 ∧ s.mode = .num 8 1 0 (.sum 4 0))

theorem next_other {s : St} (h1 : SkipOk s) (h2 : ¬ Late s) : Next s := ⟨h1, fun h => absurd h h2⟩

theorem next_fail (s : St) (c : Nat) : Next (s.to (.fail c)) := next_other trivial id
theorem next_word (s : St) (b : Book) (k : Nat) (y : Sym) : Next (s.to (.word b k y)) := next_other trivial id

theorem next_toWord (s : St) (b : Book) (k : Sym) : Next (s.toWord b k) := by
  unfold St.toWord; split
  · exact next_fail _ _
  · exact next_word _ _ _ _

theorem next_toLit (s : St) (a b : Book) : Next (s.toLit a b) := next_toWord _ _ _
theorem next_toDist (s : St) (a b : Book) (n : Nat) : Next (s.toDist a b n) := next_toWord _ _ _
theorem next_toLens (s : St) (a b : Nat) (c : Book) (d : List Nat) : Next (s.toLens a b c d) := by
  unfold St.toLens; split
  · exact next_toWord _ _ _
  · split
    · exact next_toLit _ _ _
    · exact next_fail _ _
theorem next_toBook (s : St) (a b : Nat) (c : List Nat) : Next (s.toBook a b c) := by
  unfold St.toBook; split
  · exact next_toLens _ _ _ _ _
  · exact next_fail _ _
theorem next_ref (s : St) (a b : Book) (n d : Nat) : Next (s.ref a b n d) := by
  unfold St.ref; split
  · exact next_toLit _ _ _
  · exact next_fail _ _

theorem next_toSum (s : St) : Next s.toSum := by
  unfold St.toSum
  split
  · rename_i h
    refine ⟨trivial, fun _ => ⟨?_, rfl⟩⟩
    show s.pos % 8 = 0
    unfold St.rest at h
    omega
  · rename_i h
    refine next_other ?_ id
    show 1 ≤ s.rest ∧ (s.pos + s.rest) % 8 = 0
    unfold St.rest at h ⊢
    omega

theorem next_endBlock (s : St) : Next s.endBlock := by
  unfold St.endBlock; split
  · exact next_toSum s
  · exact next_other trivial id

theorem next_toStored (s : St) : Next s.toStored := by
  unfold St.toStored; split <;> exact next_other trivial id

theorem next_sym (s : St) (b : Book) (v : Nat) (k : Sym) : Next (s.gotSym b v k) := by
  cases k <;> simp only [St.gotSym] <;> repeat' split
  all_goals first
    | exact next_fail _ _
    | exact next_toLens _ _ _ _ _
    | exact next_toLit _ _ _
    | exact next_endBlock _
    | exact next_toDist _ _ _ _
    | exact next_ref _ _ _ _ _
    | exact next_other trivial id

/-- `k` does not belong to the checksum. -/
def Early : Num → Prop
  | .sum _ _ => False
  | .skipSum => False
  | _ => True

theorem next_num (s : St) (v : Nat) (k : Num) (hk : Early k) : Next (s.gotNum v k) := by
  cases k with
  | sum _ _ => exact absurd hk id
  | skipSum => exact absurd hk id
  | dext lit dist len base => exact next_ref _ _ _ _ _
  | copy n =>
    simp only [St.gotNum]
    split
    · exact next_endBlock _
    · exact next_other trivial id
  | hdr =>
    simp only [St.gotNum]
    split
    · exact next_toStored _
    · split
      · exact next_toLit _ _ _
      · split
        · exact next_other trivial id
        · exact next_fail _ _
  | skip => exact next_other trivial id
  | len => exact next_other trivial id
  | nlen n =>
    simp only [St.gotNum]
    split
    · exact next_fail _ _
    · split
      · exact next_endBlock _
      · exact next_other trivial id
  | counts =>
    simp only [St.gotNum]
    split
    · exact next_fail _ _
    · split
      · exact next_fail _ _
      · exact next_other trivial id
  | clen a b c d =>
    simp only [St.gotNum]
    split
    · exact next_other trivial id
    · exact next_toBook _ _ _ _
  | rep a b c d e f =>
    simp only [St.gotNum]
    split
    · exact next_fail _ _
    · exact next_toLens _ _ _ _ _
  | lext a b c => exact next_toDist _ _ _ _

theorem next_bit {s : St} (hs : SkipOk s) (hl : ¬ Late s) (b : Bool) : Next (s.bit b) := by
  unfold St.bit
  dsimp only
  split
  · rename_i left w v k hm
    cases k with
    | sum l a => exact absurd (show Late s by unfold Late; rw [hm]; trivial) hl
    | skipSum =>
      have hs' : 1 ≤ left ∧ (s.pos + left) % 8 = 0 := by
        unfold SkipOk at hs; rw [hm] at hs; exact hs
      split
      · refine ⟨trivial, fun _ => ⟨?_, rfl⟩⟩
        show (s.pos + 1) % 8 = 0
        omega
      · refine next_other ?_ id
        show 1 ≤ left - 1 ∧ (s.pos + 1 + (left - 1)) % 8 = 0
        omega
    | _ =>
      split
      · exact next_num _ _ _ trivial
      · exact next_other trivial id
  · split
    · exact next_sym _ _ _ _
    · generalize (2 * _ + if b = true then 1 else 0) = key
      split
      · exact next_fail _ _
      · exact next_word _ _ _ _
  · rename_i hm
    exact absurd (show Late s by unfold Late; rw [hm]; trivial) hl
  · rename_i hm
    exact next_other hs hl

theorem pos_toWord (s : St) (b : Book) (k : Sym) : (s.toWord b k).pos = s.pos := by unfold St.toWord; split <;> rfl
theorem pos_toLit (s : St) (a b : Book) : (s.toLit a b).pos = s.pos := pos_toWord _ _ _
theorem pos_toDist (s : St) (a b : Book) (n : Nat) : (s.toDist a b n).pos = s.pos := pos_toWord _ _ _
theorem pos_toLens (s : St) (a b : Nat) (c : Book) (d : List Nat) : (s.toLens a b c d).pos = s.pos := by
  unfold St.toLens; split
  · exact pos_toWord _ _ _
  · split
    · exact pos_toLit _ _ _
    · rfl
theorem pos_toBook (s : St) (a b : Nat) (c : List Nat) : (s.toBook a b c).pos = s.pos := by
  unfold St.toBook; split
  · exact pos_toLens _ _ _ _ _
  · rfl
theorem pos_endBlock (s : St) : s.endBlock.pos = s.pos := by
  unfold St.endBlock; split
  · unfold St.toSum; split <;> rfl
  · rfl
theorem pos_ref (s : St) (a b : Book) (n d : Nat) : (s.ref a b n d).pos = s.pos := by
  unfold St.ref; split
  · exact pos_toLit _ _ _
  · rfl

theorem pos_sym (s : St) (b : Book) (v : Nat) (k : Sym) : (s.gotSym b v k).pos = s.pos := by
  cases k <;> simp only [St.gotSym] <;> repeat' split
  all_goals first
    | rfl
    | exact pos_toLens _ _ _ _ _
    | exact pos_toLit _ _ _
    | exact pos_endBlock _
    | exact pos_toDist _ _ _ _
    | exact pos_ref _ _ _ _ _

theorem pos_num (s : St) (v : Nat) (k : Num) : (s.gotNum v k).pos = s.pos := by
  cases k with
  | dext lit dist len base => exact pos_ref _ _ _ _ _
  | copy n =>
    simp only [St.gotNum]
    split
    · exact pos_endBlock _
    · rfl
  | hdr =>
    simp only [St.gotNum]
    split
    · unfold St.toStored; split <;> rfl
    · split
      · exact pos_toLit _ _ _
      · split <;> rfl
  | skip => rfl
  | len => rfl
  | nlen n =>
    simp only [St.gotNum]
    split
    · rfl
    · split
      · exact pos_endBlock _
      · rfl
  | counts =>
    simp only [St.gotNum]
    split
    · rfl
    · split <;> rfl
  | clen a b c d =>
    simp only [St.gotNum]
    split
    · rfl
    · exact pos_toBook _ _ _ _
  | rep a b c d e f =>
    simp only [St.gotNum]
    split
    · rfl
    · exact pos_toLens _ _ _ _ _
  | lext a b c => exact pos_toDist _ _ _ _
  | skipSum => rfl
  | sum a b =>
    simp only [St.gotNum]
    split
    · rfl
    · generalize adler32 _ = n
      split <;> rfl

theorem pos_bit {s : St} (h : Runs s) (b : Bool) : (s.bit b).pos = s.pos + 1 := by
  unfold Runs zlibStatus at h
  unfold St.bit
  dsimp only
  split
  · split
    · exact pos_num _ _ _
    · rfl
  · split
    · exact pos_sym _ _ _ _
    · generalize (2 * _ + if b = true then 1 else 0) = key
      split <;> rfl
  · rename_i hm; rw [hm] at h; cases h
  · rename_i hm; rw [hm] at h; cases h

theorem not_runs {s : St} (h : ¬ Runs s) : Late s → s.mode = .done := by
  intro hl
  unfold Late at hl
  unfold Runs zlibStatus at h
  cases hm : s.mode <;> rw [hm] at h hl <;> simp_all

/-- Up to the end of a byte. -/
theorem next_bits : ∀ (bs : List Bool) (s : St), SkipOk s → ¬ Late s → bs.length ≤ 8 → (Runs s → (s.pos + bs.length) % 8 = 0) →
    SkipOk (s.bits bs) ∧ (Late (s.bits bs) → (s.bits bs).mode = .num 8 1 0 (.sum 4 0)) ∧
      (Runs (s.bits bs) → (s.bits bs).pos % 8 = 0) := by
  intro bs
  induction bs with
  | nil => intro s h1 h2 _ h4; exact ⟨h1, fun h => absurd h h2, fun h => by simpa [bits_nil] using h4 h⟩
  | cons b bs ih =>
    intro s h1 h2 h3 h4
    rw [bits_cons]
    by_cases hr : Runs s
    · obtain ⟨n1, n2⟩ := next_bit h1 h2 b
      have hp := pos_bit hr b
      have h4' := h4 hr
      simp only [List.length_cons] at h3 h4'
      by_cases hl : Late (s.bit b)
      · obtain ⟨e1, e2⟩ := n2 hl
        have : bs = [] := List.length_eq_zero_iff.mp (by omega)
        subst this
        exact ⟨n1, fun _ => e2, fun _ => e1⟩
      · exact ih (s.bit b) n1 hl (by omega) (fun _ => by rw [hp]; omega)
    · rw [stop_bit hr, stop_bits hr]
      exact ⟨h1, fun h => absurd h h2, fun h => absurd h hr⟩

theorem bitsOf_length (c : Byte) : (bitsOf c).length = 8 := by simp [bitsOf]

/-- While the checksum is read. -/
theorem late_inflate : ∀ (left : Nat) (s : St) (acc : Nat) (body out : Bytes), 1 ≤ left → s.mode = .num 8 1 0 (.sum left acc) →
    inflate zlibInflater s body = some out →
    out = [] ∧ body.length = left ∧ body.foldl (fun a c => a * 256 + c.toNat) acc = adler32 s.hist.reverse := by
  intro left
  induction left with
  | zero => intro s acc body out h; omega
  | succ left ih =>
    intro s acc body out _ hm h
    have hs : s = s.to (.num 8 1 0 (.sum (left + 1) acc)) := by rw [← hm]; rfl
    have hr : Runs s := by unfold Runs zlibStatus; rw [hm]
    cases body with
    | nil =>
      rw [inflate, if_neg] at h
      · cases h
      · show zlibStatus s ≠ .done
        rw [show zlibStatus s = .running from hr]; simp
    | cons c body =>
      rw [inflate, if_pos (show zlibInflater.status s = .running from hr)] at h
      have hstep : zlibInflater.step s c = s.byte c := rfl
      rw [hstep] at h
      by_cases hl : left = 0
      · subst hl
        have hb : s.bits (bitsOf c) = if acc * 256 + c.toNat = adler32 s.hist.reverse then (adv s 8).to .done
            else (adv s 8).to (.fail badSum) := by
          conv => lhs; rw [hs]
          exact sum_last s c acc
        have hb1 : (s.byte c).1 = s.bits (bitsOf c) := rfl
        have hb2 : (s.byte c).2 = [] := by
          have : (s.bits (bitsOf c)).hist = [] ++ s.hist := by
            rw [hb]; generalize adler32 _ = n; split <;> rfl
          exact byte_out this
        rw [hb1, hb2, hb] at h
        by_cases he : acc * 256 + c.toNat = adler32 s.hist.reverse
        · rw [if_pos he] at h
          cases body with
          | nil =>
            rw [inflate, if_pos (by rfl)] at h
            simp at h
            exact ⟨h, rfl, he⟩
          | cons d body =>
            rw [inflate, if_neg (by simp [zlibInflater, zlibStatus, St.to])] at h
            simp at h
        · rw [if_neg he] at h
          cases body with
          | nil =>
            rw [inflate, if_neg (by simp [zlibInflater, zlibStatus, St.to])] at h
            simp at h
          | cons d body =>
            rw [inflate, if_neg (by simp [zlibInflater, zlibStatus, St.to])] at h
            simp at h
      · have hb : s.bits (bitsOf c) = (adv s 8).to (.num 8 1 0 (.sum left (acc * 256 + c.toNat))) := by
          conv => lhs; rw [hs]
          exact sum_byte s c (left + 1) acc (by omega)
        have hb1 : (s.byte c).1 = s.bits (bitsOf c) := rfl
        have hb2 : (s.byte c).2 = [] := by
          have : (s.bits (bitsOf c)).hist = [] ++ s.hist := by rw [hb]; rfl
          exact byte_out this
        rw [hb1, hb2, hb] at h
        obtain ⟨o, ho, ho'⟩ := Option.map_eq_some_iff.mp h
        obtain ⟨i1, i2, i3⟩ := ih _ _ body o (by omega) rfl ho
        refine ⟨?_, ?_, i3⟩
        · rw [← ho', i1]; rfl
        · simp [i2]

/-- Before the checksum. -/
theorem early_inflate : ∀ (body : Bytes) (s : St) (out : Bytes), SkipOk s → ¬ Late s → s.pos % 8 = 0 →
    inflate zlibInflater s body = some out →
    ∃ pre sum, body = pre ++ sum ∧ sum.length = 4 ∧
      sum.foldl (fun a c => a * 256 + c.toNat) 0 = adler32 (out.reverse ++ s.hist).reverse := by
  intro body
  induction body with
  | nil =>
    intro s out _ hl _ h
    rw [inflate] at h
    split at h
    · rename_i hd
      exfalso
      apply hl
      have hd' : zlibStatus s = .done := hd
      unfold zlibStatus at hd'
      unfold Late
      cases hm : s.mode <;> rw [hm] at hd' <;> simp at hd' <;> trivial
    · cases h
  | cons c body ih =>
    intro s out h1 h2 h3 h
    rw [inflate] at h
    split at h
    · rename_i hr
      obtain ⟨o, ho, ho'⟩ := Option.map_eq_some_iff.mp h
      have hstep : zlibInflater.step s c = s.byte c := rfl
      rw [hstep] at ho ho'
      have hb1 : (s.byte c).1 = s.bits (bitsOf c) := rfl
      rw [hb1] at ho
      obtain ⟨x, hx⟩ := grows_bits (bitsOf c) s
      rw [byte_out hx] at ho'
      obtain ⟨n1, n2, n3⟩ := next_bits (bitsOf c) s h1 h2 (by rw [bitsOf_length]; omega) (fun _ => by rw [bitsOf_length]; omega)
      have hout : out.reverse ++ s.hist = o.reverse ++ (s.bits (bitsOf c)).hist := by
        rw [← ho', hx]; simp
      by_cases hl : Late (s.bits (bitsOf c))
      · obtain ⟨i1, i2, i3⟩ := late_inflate 4 _ 0 body o (by omega) (n2 hl) ho
        refine ⟨[c], body, rfl, i2, ?_⟩
        rw [i3, hout, i1]; rfl
      · by_cases hr2 : Runs (s.bits (bitsOf c))
        · obtain ⟨pre, sum, e1, e2, e3⟩ := ih _ o n1 hl (n3 hr2) ho
          exact ⟨c :: pre, sum, by rw [e1]; rfl, e2, by rw [e3, hout]⟩
        · exfalso
          cases body with
          | nil =>
            rw [inflate] at ho
            split at ho
            · rename_i hd
              apply hl
              have hd' : zlibStatus (s.bits (bitsOf c)) = .done := hd
              unfold zlibStatus at hd'
              unfold Late
              cases hm : (s.bits (bitsOf c)).mode <;> rw [hm] at hd' <;> simp at hd' <;> trivial
            · cases ho
          | cons d body =>
            rw [inflate, if_neg (show ¬ zlibInflater.status _ = .running from hr2)] at ho
            cases ho
    · cases h

theorem be32 {sum : Bytes} {n : Nat} (hl : sum.length = 4) (h : sum.foldl (fun a c => a * 256 + c.toNat) 0 = n) : sum = sumBytes n := by
  obtain ⟨a, b, c, d, rfl⟩ : ∃ a b c d, sum = [a, b, c, d] := by
    rcases sum with _ | ⟨a, _ | ⟨b, _ | ⟨c, _ | ⟨d, _ | ⟨e, r⟩⟩⟩⟩⟩ <;> simp at hl
    exact ⟨a, b, c, d, rfl⟩
  simp only [List.foldl_cons, List.foldl_nil, Nat.zero_mul, Nat.zero_add] at h
  have ha := a.toNat_lt
  have hb := b.toNat_lt
  have hc := c.toNat_lt
  have hd := d.toNat_lt
  have e1 : n / 16777216 = a.toNat := by omega
  have e2 : n / 65536 % 256 = b.toNat := by omega
  have e3 : n / 256 % 256 = c.toNat := by omega
  have e4 : n % 256 = d.toNat := by omega
  simp [sumBytes, e1, e2, e3, e4]

end Verif.Lineproto
