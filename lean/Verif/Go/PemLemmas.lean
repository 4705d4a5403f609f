import Verif.Go.Pem
import Verif.Spec.Pem

/-!
# Files with PEM blocks are read as such
-/

namespace Verif.Go.Base64

open Verif.Spec.Base32 (number digits)

theorem decChar_alphabet {d : Nat} (h : d < 64) : decChar (Spec.Base64.alphabet.getD d 0) = some d := by
  have : ∀ d : Fin 64, decChar (Spec.Base64.alphabet.getD d.val 0) = some d.val := by decide +kernel
  exact this ⟨d, h⟩

theorem four (n : Nat) : digits 64 4 n = [n / 64 / 64 / 64 % 64, n / 64 / 64 % 64, n / 64 % 64, n % 64] := by
  simp [digits]

theorem value (a b c : Byte) : number 256 [a.toNat, b.toNat, c.toNat] = (a.toNat * 256 + b.toNat) * 256 + c.toNat := by
  simp [number]

theorem ofNat_toNat {n : Nat} {a : Byte} (h : n = a.toNat) : UInt8.ofNat n = a := by
  subst h; exact UInt8.ofNat_toNat

/-- What was written is read. -/
theorem groups_text (s : Bytes) : groups (Spec.Base64.text s) = some s := by
  induction hn : s.length using Nat.strongRecOn generalizing s with
  | _ n ih =>
    subst hn
    match s with
    | [] => rfl
    | [a] =>
      have ha := a.toNat_lt
      simp only [Spec.Base64.text, Spec.Base64.group, four, value, List.take, List.map, List.cons_append, List.nil_append]
      rw [groups, decChar_alphabet (Nat.mod_lt _ (by decide)), decChar_alphabet (Nat.mod_lt _ (by decide))]
      rw [show decChar c!"=" = none by decide]
      simp only [and_self, if_true]
      congr 2
      apply ofNat_toNat
      simp
      omega
    | [a, b] =>
      have ha := a.toNat_lt
      have hb := b.toNat_lt
      simp only [Spec.Base64.text, Spec.Base64.group, four, value, List.take, List.map, List.cons_append, List.nil_append]
      rw [groups, decChar_alphabet (Nat.mod_lt _ (by decide)), decChar_alphabet (Nat.mod_lt _ (by decide)),
        decChar_alphabet (Nat.mod_lt _ (by decide)), show decChar c!"=" = none by decide]
      simp only [and_self, if_true]
      congr 2
      · apply ofNat_toNat
        simp
        omega
      · congr 1
        apply ofNat_toNat
        simp
        omega
    | a :: b :: c :: s =>
      have ha := a.toNat_lt
      have hb := b.toNat_lt
      have hc := c.toNat_lt
      simp only [Spec.Base64.text, Spec.Base64.group, four, value, List.take, List.map, List.cons_append, List.nil_append]
      rw [groups, decChar_alphabet (Nat.mod_lt _ (by decide)), decChar_alphabet (Nat.mod_lt _ (by decide)),
        decChar_alphabet (Nat.mod_lt _ (by decide)), decChar_alphabet (Nat.mod_lt _ (by decide)), ih s.length (by simp; omega) s rfl]
      simp only [Option.map_some]
      congr 2
      · apply ofNat_toNat
        omega
      · congr 1
        · apply ofNat_toNat
          omega
        · congr 1
          apply ofNat_toNat
          omega

theorem alphabet_mem {d : Nat} (h : d < 64) : Spec.Base64.alphabet.getD d 0 ∈ Spec.Base64.alphabet := by
  have : ∀ d : Fin 64, Spec.Base64.alphabet.getD d.val 0 ∈ Spec.Base64.alphabet := by decide +kernel
  exact this ⟨d, h⟩

theorem group_chars (k : Nat) (a b c : Byte) : ∀ x ∈ Spec.Base64.group k a b c, x ∈ Spec.Base64.alphabet := by
  intro x hx
  unfold Spec.Base64.group at hx
  obtain ⟨d, hd, rfl⟩ := List.mem_map.mp hx
  have hd := List.mem_of_mem_take hd
  rw [four] at hd
  simp only [List.mem_cons, List.not_mem_nil, or_false] at hd
  apply alphabet_mem
  omega

theorem text_chars (s : Bytes) : ∀ c ∈ Spec.Base64.text s, c ∈ Spec.Base64.alphabet ∨ c = c!"=" := by
  fun_induction Spec.Base64.text s with
  | case1 a b c s ih =>
    intro x hx
    rcases List.mem_append.mp hx with hx | hx
    · exact .inl (group_chars _ _ _ _ x hx)
    · exact ih x hx
  | case2 a b =>
    intro x hx
    rcases List.mem_append.mp hx with hx | hx
    · exact .inl (group_chars _ _ _ _ x hx)
    · simp at hx; exact .inr hx
  | case3 a =>
    intro x hx
    rcases List.mem_append.mp hx with hx | hx
    · exact .inl (group_chars _ _ _ _ x hx)
    · simp at hx; exact .inr hx
  | case4 => simp

end Verif.Go.Base64

namespace Verif.Go.Pem

open Verif.Spec.Pem

/-- A line and its end. -/
theorem getLine_eol {l eol more : Bytes} (h : c!"\n" ∉ l) (hl : ∀ c, l.getLast? = some c → c ≠ c!"\r" ∧ blank c = false)
    (he : eol ∈ eols ∨ (eol = [] ∧ more = [])) : getLine (l ++ eol ++ more) = (l, more) := by
  have ht : trimRight l blank = l := by
    unfold trimRight
    rcases List.eq_nil_or_concat l with rfl | ⟨l', c, rfl⟩
    · rfl
    · have := (hl c (by simp)).2
      simp [this]
  have hcr : ∀ i, 0 < i → i = l.length → l[i - 1]? ≠ some c!"\r" := by
    intro i h0 hi hc
    rw [hi, ← List.getLast?_eq_getElem?] at hc
    exact (hl _ hc).1 rfl
  rcases he with he | ⟨rfl, rfl⟩
  · simp only [eols, List.mem_cons, List.not_mem_nil, or_false] at he
    rcases he with rfl | rfl
    · unfold getLine
      rw [show l ++ b!"\n" ++ more = l ++ c!"\n" :: more by simp, indexByte_append h]
      simp only
      rw [if_neg]
      · rw [List.take_left', ht]
        · simp
        · rfl
      · rintro ⟨h0, hc⟩
        rw [List.getElem?_append_left (by omega)] at hc
        exact hcr _ h0 rfl hc
    · unfold getLine
      rw [show l ++ b!"\r\n" ++ more = (l ++ b!"\r") ++ c!"\n" :: more by simp, indexByte_append (by simp [h])]
      simp only
      rw [if_pos]
      · rw [List.append_assoc, show (l ++ b!"\r").length - 1 = l.length by simp, List.take_left' rfl, ht,
          ← List.append_assoc, show (l ++ b!"\r").length + 1 = (l ++ b!"\r" ++ b!"\n").length by simp,
          show l ++ b!"\r" ++ c!"\n" :: more = (l ++ b!"\r" ++ b!"\n") ++ more by simp, List.drop_left' rfl]
      · refine ⟨by simp, ?_⟩
        rw [List.getElem?_append_left (by simp)]
        simp
  · unfold getLine
    rw [List.append_nil, List.append_nil, indexByte_none.mpr h]
    simp [ht]

theorem mem_trimRight {s : Bytes} {f : Byte → Bool} {c : Byte} (h : c ∈ trimRight s f) : c ∈ s := by
  unfold trimRight at h
  rw [List.mem_reverse] at h
  exact List.mem_reverse.mp ((List.dropWhile_suffix f).subset h)

/-- What is in the first line. -/
theorem mem_getLine {u v : Bytes} {c : Byte} (hv : v = [] ∨ ∃ w, v = c!"\n" :: w) (h : c ∈ (getLine (u ++ v)).1) : c ∈ u := by
  unfold getLine at h
  split at h
  · rename_i hn
    rcases hv with rfl | ⟨w, rfl⟩
    · simpa using mem_trimRight h
    · exact absurd (by simp) (indexByte_none.mp hn)
  · rename_i i hi
    obtain ⟨a, b, hab, ha, rfl⟩ := indexByte_some hi
    have hm := List.take_subset_take_left (u ++ v) (show (if 0 < a.length ∧ (u ++ v)[a.length - 1]? = some c!"\r" then a.length - 1 else a.length) ≤
      a.length by split <;> omega) (mem_trimRight h)
    rw [hab, List.take_left' rfl] at hm
    rcases hv with rfl | ⟨w, rfl⟩
    · rw [List.append_nil] at hab
      rw [hab]; simp [hm]
    · rcases List.append_eq_append_iff.mp hab with ⟨x, h1, h2⟩ | ⟨x, h1, h2⟩
      · cases x with
        | nil => rw [List.append_nil] at h1; exact h1 ▸ hm
        | cons y x =>
          cases h2
          exact absurd (by rw [h1]; simp) ha
      · rw [h1]; simp [hm]

theorem headers_none {had : Bool} {u v : Bytes} (h0 : u ++ v ≠ []) (hv : v = [] ∨ ∃ w, v = c!"\n" :: w) (h : c!":" ∉ u) :
    headers had (u ++ v) = some (had, u ++ v) := by
  unfold headers
  rw [dif_neg h0, if_neg (fun hc => h (mem_getLine hv hc))]

theorem alphabet_plain : ∀ c ∈ Spec.Base64.alphabet, c ≠ c!"-" ∧ c ≠ c!":" ∧ c ∉ b!"\r\n \t" := by decide +kernel

theorem body_plain {b body : Bytes} (h : Body b body) : ∀ c ∈ body, c ≠ c!"-" ∧ c ≠ c!":" := by
  intro c hc
  rcases h.2.1 c hc with h | h
  · exact ⟨(alphabet_plain c h).1, (alphabet_plain c h).2.1⟩
  · revert h
    simp only [List.mem_cons, List.not_mem_nil, or_false]
    rintro (rfl | rfl | rfl | rfl | rfl) <;> decide

/-- The line that ends a block. -/
theorem end_found {had : Bool} {body r : Bytes} (h0 : had = false ∨ body ≠ []) (h1 : body = [] ∨ body.getLast? = some c!"\n")
    (hp : ∀ c ∈ body, c ≠ c!"-") : end? had (body ++ b!"-----END " ++ r) = some (if body = [] then (0, 9) else (body.length - 1, body.length + 9)) := by
  unfold end?
  by_cases hb : body = []
  · subst hb
    simp at h0
    simp [fin, hasPrefix, h0]
  · rw [if_neg hb]
    obtain ⟨body', hb'⟩ : ∃ b', body = b' ++ b!"\n" := by
      rcases h1 with h | h
      · exact absurd h hb
      · obtain ⟨l, rfl⟩ := List.getLast?_eq_some_iff.mp h
        exact ⟨l, rfl⟩
    rw [if_neg]
    · have hi : index (body ++ b!"-----END " ++ r) fin = some body'.length := by
        refine index_eq ?_ (by rw [hb']; simp) ?_
        · rw [hb', show body' ++ b!"\n" ++ b!"-----END " ++ r = body' ++ (fin ++ r) by simp [fin], List.drop_left' rfl]
          exact List.prefix_append _ _
        · rintro j hj ⟨t, ht⟩
          have h1 : (body ++ b!"-----END " ++ r)[j + 1]? = some c!"-" := by
            have := congrArg (·[1]?) ht
            simp only [List.getElem?_drop, fin] at this
            rw [← this]
            simp
          have h2 : j + 1 < body.length := by rw [hb']; simp; omega
          rw [List.append_assoc, List.getElem?_append_left h2] at h1
          exact hp _ (List.mem_of_getElem? h1) rfl
      rw [hi, hb']
      simp
    · rintro ⟨-, hx⟩
      obtain ⟨t, ht⟩ := hasPrefix_iff.mp hx
      cases body with
      | nil => exact hb rfl
      | cons c body =>
        have : c = c!"-" := by
          simp [fin] at ht
          exact ht.1.symm
        exact hp c (by simp) this

theorem filter_body {b body : Bytes} (h : Body b body) :
    Base64.decode ((body.take (body.length - 1)).filter fun c => !blank c) = some b := by
  have : ∀ s : Bytes, (s.filter fun c => !blank c).filter (fun c => c ≠ c!"\r" ∧ c ≠ c!"\n") = s.filter (fun c => c ∉ b!"\r\n \t") := by
    intro s
    rw [List.filter_filter]
    apply List.filter_congr
    have h : ∀ c : Byte, (decide (c ≠ c!"\r" ∧ c ≠ c!"\n") && !blank c) = decide (c ∉ b!"\r\n \t") := by
      apply forall_byte
      decide +kernel
    exact fun c _ => h c
  unfold Base64.decode
  rw [this]
  have h2 : (body.take (body.length - 1)).filter (fun c => c ∉ b!"\r\n \t") = body.filter (fun c => c ∉ b!"\r\n \t") := by
    rcases h.1 with h | h
    · subst h; rfl
    · obtain ⟨l, rfl⟩ := List.getLast?_eq_some_iff.mp h
      rw [List.filter_append]
      simp
  rw [h2, h.2.2]
  exact Base64.groups_text b

/-- The last line of a block is found; what counts is the base64 text before it. -/
theorem last_eq {had : Bool} {typ body eol rest : Bytes} (h0 : had = false ∨ body ≠ []) (hn : c!"\n" ∉ typ) (h1 : body = [] ∨ body.getLast? = some c!"\n") (hp : ∀ c ∈ body, c ≠ c!"-")
    (he : eol ∈ eols ∨ (eol = [] ∧ rest = [])) :
    last typ had (body ++ b!"-----END " ++ (typ ++ b!"-----" ++ eol ++ rest)) =
      match Base64.decode ((body.take (body.length - 1)).filter fun c => !blank c) with
      | .none => .again (body ++ b!"-----END " ++ (typ ++ b!"-----" ++ eol ++ rest))
      | some b => .block typ b rest := by
  unfold last
  rw [end_found h0 h1 hp]
  have hj : ∃ i, (if body = [] then (0, 9) else (body.length - 1, body.length + 9)) = (i, body.length + 9) ∧ i = body.length - 1 ∧
      (body ++ b!"-----END " ++ (typ ++ b!"-----" ++ eol ++ rest)).take i = body.take (body.length - 1) := by
    by_cases hb : body = []
    · subst hb; exact ⟨0, rfl, rfl, rfl⟩
    · refine ⟨body.length - 1, by rw [if_neg hb], rfl, ?_⟩
      rw [List.append_assoc, List.take_append_of_le_length (by omega)]
  obtain ⟨i, h1, h2, h3⟩ := hj
  rw [h1]
  simp only
  have hd : (body ++ b!"-----END " ++ (typ ++ b!"-----" ++ eol ++ rest)).drop (body.length + 9) = (typ ++ b!"-----") ++ (eol ++ rest) := by
    rw [List.drop_left' (by simp)]; simp
  have hl : typ.length + dashes.length = (typ ++ b!"-----").length := by simp [dashes]
  rw [hd, hl, List.take_left' rfl, List.drop_left' rfl, h3]
  rw [if_neg (by simp), if_neg, if_neg]
  · have hr : (getLine ((body ++ b!"-----END " ++ (typ ++ b!"-----" ++ eol ++ rest)).drop (i + 9))).2 = rest := by
      have hlast : ∀ p : Bytes, ∀ c, (p ++ typ ++ b!"-----").getLast? = some c → c ≠ c!"\r" ∧ blank c = false := by
        intro p c hc
        have : c = c!"-" := by simpa using hc.symm
        subst this
        decide
      by_cases hb : body = []
      · subst hb
        have : i = 0 := h2
        subst this
        have := getLine_eol (l := typ ++ b!"-----") (by simp [hn]) (hlast []) he
        simp at this ⊢
        rw [this]
      · have hpos := List.length_pos_iff.mpr hb
        have : i + 9 = (body ++ b!"-----END").length := by simp; omega
        rw [this, show body ++ b!"-----END " ++ (typ ++ b!"-----" ++ eol ++ rest) =
          (body ++ b!"-----END") ++ ((b!" " ++ typ ++ b!"-----") ++ eol ++ rest) by simp, List.drop_left' rfl]
        rw [getLine_eol (by simp [hn]) (hlast b!" ") he]
    rw [hr]
    cases Base64.decode ((body.take (body.length - 1)).filter fun c => !blank c) <;> rfl
  · have := getLine_eol (l := []) (by simp) (by simp) he
    simp only [List.nil_append] at this
    rw [this]
    simp
  · simp only [hasPrefix, hasSuffix, dashes]
    simp

/-- An occurrence that begins in lines that are all ended, and has no end of a line in it, lies in them. -/
theorem inside {p v w : Bytes} (hp : c!"\n" ∉ p) (hv : v.getLast? = some c!"\n") (h : p <+: v ++ w) : p <+: v := by
  by_cases hl : p.length ≤ v.length
  · exact List.prefix_of_prefix_length_le h (List.prefix_append v w) hl
  · have := List.prefix_of_prefix_length_le (List.prefix_append v w) h (by omega)
    exact absurd (this.subset (List.mem_of_getLast? hv)) hp

/-- Where a block begins. -/
theorem begin_found {x r : Bytes} (hx : Other x) (he : x = [] ∨ x.getLast? = some c!"\n") :
    begin? (x ++ b!"-----BEGIN " ++ r) = some r := by
  unfold begin?
  by_cases h0 : x = []
  · subst h0
    simp [start, hasPrefix]
  · obtain ⟨x', hx'⟩ : ∃ b', x = b' ++ b!"\n" := by
      rcases he with h | h
      · exact absurd h h0
      · obtain ⟨l, rfl⟩ := List.getLast?_eq_some_iff.mp h
        exact ⟨l, rfl⟩
    have hlast : ∀ j, j < x.length → (x.drop j).getLast? = some c!"\n" := by
      intro j hj
      rw [List.getLast?_drop, if_neg (by omega), hx']
      simp
    rw [if_neg]
    · have hi : index (x ++ b!"-----BEGIN " ++ r) start = some x'.length := by
        refine index_eq ?_ (by rw [hx']; simp) ?_
        · rw [hx', show x' ++ b!"\n" ++ b!"-----BEGIN " ++ r = x' ++ (start ++ r) by simp [start], List.drop_left' rfl]
          exact List.prefix_append _ _
        · intro j hj hp
          have hjx : j + 1 < x.length := by rw [hx']; simp; omega
          rw [List.append_assoc, List.drop_append_of_le_length (by omega)] at hp
          have hd : x.drop j = x[j] :: x.drop (j + 1) := List.drop_eq_getElem_cons (by omega)
          rw [hd] at hp
          obtain ⟨hc, hp⟩ := List.cons_prefix_cons.mp (show c!"\n" :: b!"-----BEGIN " <+: x[j] :: (x.drop (j + 1) ++ _) from hp)
          refine hx (x.take (j + 1)) (x.drop (j + 1)) (List.take_append_drop _ _).symm (.inr ?_) (inside (by decide) (hlast _ hjx) hp)
          rw [List.take_succ_eq_append_getElem (by omega), ← hc]
          simp
      rw [hi]
      simp only [Option.map_some, Option.some.injEq]
      rw [List.drop_left' (by rw [hx']; simp)]
    · intro hp
      have hp := hasPrefix_iff.mp hp
      rw [List.append_assoc] at hp
      exact hx [] x rfl (.inl rfl) (inside (by decide) (by have := hlast 0 (List.length_pos_iff.mpr h0); simpa using this) hp)

theorem begin_none {x : Bytes} (hx : Other x) : begin? x = none := by
  unfold begin?
  rw [if_neg]
  · cases hi : index x start with
    | none => rfl
    | some i =>
      obtain ⟨a, b, hab, -, -⟩ := index_some hi
      refine absurd ?_ (hx (a ++ b!"\n") (b!"-----BEGIN " ++ b) (by rw [hab]; simp [start]) (.inr (by simp)))
      exact List.prefix_append _ _
  · intro hp
    exact hx [] x rfl (.inl rfl) (hasPrefix_iff.mp hp)

theorem other_append {x y : Bytes} (hx : Other x) (hx' : x = [] ∨ x.getLast? = some c!"\n") (hy : Other y) : Other (x ++ y) := by
  intro a b hab ha hp
  rcases List.append_eq_append_iff.mp hab with ⟨t, h1, h2⟩ | ⟨t, h1, h2⟩
  · refine hy t b h2 ?_ hp
    by_cases ht : t = []
    · exact .inl ht
    · right
      rcases ha with ha | ha
      · rw [ha] at h1
        simp at h1
        exact absurd h1.2 ht
      · rw [h1, List.getLast?_append] at ha
        obtain ⟨t', c, rfl⟩ := List.eq_nil_or_concat t |>.resolve_left ht
        simpa using ha
  · by_cases ht : t = []
    · subst ht
      exact hy [] y rfl (.inl rfl) (by rw [h2] at hp; exact hp)
    · refine hx a t h1 ha (inside (by decide) ?_ (h2 ▸ hp))
      rcases hx' with hx' | hx'
      · rw [hx'] at h1
        have := h1.symm
        simp at this
        exact absurd this.2 ht
      · rw [h1, List.getLast?_append] at hx'
        obtain ⟨t', c, rfl⟩ := List.eq_nil_or_concat t |>.resolve_left ht
        simpa using hx'

theorem other_plain {x : Bytes} (h : c!"-" ∉ x) : Other x := by
  rintro a b rfl _ ⟨t, rfl⟩
  exact h (by simp)

theorem other_line {l eol : Bytes} (hl : c!"\n" ∉ l) (hp : ¬ b!"-----BEGIN " <+: l ++ eol) (he : eol ∈ eols) : Other (l ++ eol) := by
  obtain ⟨l', hl', he'⟩ : ∃ l', c!"\n" ∉ l' ∧ l ++ eol = l' ++ b!"\n" := by
    simp only [eols, List.mem_cons, List.not_mem_nil, or_false] at he
    rcases he with rfl | rfl
    · exact ⟨l, hl, rfl⟩
    · exact ⟨l ++ b!"\r", by simp [hl], by simp⟩
  intro a b hab ha hb
  rcases ha with rfl | ha
  · exact hp (by rw [hab]; exact hb)
  · rw [he'] at hab
    obtain ⟨a', rfl⟩ := List.getLast?_eq_some_iff.mp ha
    obtain ⟨t, rfl⟩ := hb
    rcases List.eq_nil_or_concat (b!"-----BEGIN " ++ t) with h | ⟨b', c, h⟩
    · simp at h
    · rw [h] at hab
      have hab : l' ++ b!"\n" = (a' ++ b!"\n" ++ b') ++ [c] := by rw [hab]; simp
      obtain ⟨h1, -⟩ := List.append_inj' hab rfl
      exact hl' (by rw [h1]; simp)

/-- The first line of a block. -/
theorem step_begin {x typ eol u v : Bytes} {had : Bool} (hx : Other x) (hx' : x = [] ∨ x.getLast? = some c!"\n") (hn : c!"\n" ∉ typ)
    (he : eol ∈ eols) (hh : headers false u = some (had, v)) :
    step (x ++ b!"-----BEGIN " ++ ((typ ++ b!"-----") ++ eol ++ u)) = last typ had v := by
  unfold step
  rw [begin_found hx hx']
  simp only
  rw [getLine_eol (by simp [hn]) (by
    intro c hc
    have : c = c!"-" := by simpa using hc.symm
    subst this
    decide) (.inl he)]
  simp only
  rw [if_neg (by simp [hasSuffix, dashes]), hh]
  simp only
  rw [show (typ ++ b!"-----").take ((typ ++ b!"-----").length - dashes.length) = typ by
    rw [List.take_left' (by simp [dashes])]]

theorem mem_trimRight_of {s : Bytes} {f : Byte → Bool} {c : Byte} (h : c ∈ s) (hf : f c = false) : c ∈ trimRight s f := by
  unfold trimRight
  rw [List.mem_reverse]
  have h' : c ∈ s.reverse := List.mem_reverse.mpr h
  rw [← List.takeWhile_append_dropWhile (p := f) (l := s.reverse)] at h'
  rcases List.mem_append.mp h' with h | h
  · rw [List.all_eq_true.mp List.all_takeWhile c h] at hf; cases hf
  · exact h

/-- A header line is passed over. -/
theorem getLine_header {h u : Bytes} (hh : Header h) : (getLine (h ++ u)).2 = u ∧ c!":" ∈ (getLine (h ++ u)).1 := by
  obtain ⟨l, rfl, hn, hc⟩ := hh
  unfold getLine
  rw [show l ++ b!"\n" ++ u = l ++ c!"\n" :: u by simp, indexByte_append hn]
  simp only
  refine ⟨by simp, mem_trimRight_of ?_ (by decide)⟩
  split
  · rename_i h
    rw [List.take_append_of_le_length (by omega)]
    obtain ⟨h0, h1⟩ := h
    rw [List.getElem?_append_left (by omega), ← List.getLast?_eq_getElem?] at h1
    obtain ⟨l', rfl⟩ := List.getLast?_eq_some_iff.mp h1
    rw [List.take_left' (by simp)]
    simpa using hc
  · rw [List.take_left' rfl]; exact hc

theorem headers_lines {hs : List Bytes} (h : ∀ l ∈ hs, Header l) {had : Bool} {u : Bytes} :
    headers had (hs.flatten ++ u) = headers (had || !hs.isEmpty) u := by
  induction hs generalizing had with
  | nil => simp
  | cons l hs ih =>
    have hl := h l (by simp)
    have hg := getLine_header (u := hs.flatten ++ u) hl
    rw [List.flatten_cons, List.append_assoc]
    conv => lhs; unfold headers
    rw [dif_neg (by obtain ⟨l', rfl, _⟩ := hl; simp), if_pos hg.2, hg.1, ih (fun x hx => h x (by simp [hx]))]
    simp

/-- The headers of a block whose body is not empty. -/
theorem headers_body {hs : List Bytes} (h : ∀ l ∈ hs, Header l) {body u : Bytes} (hb : body.getLast? = some c!"\n") (hc : c!":" ∉ body) :
    headers false (hs.flatten ++ (body ++ u)) = some (!hs.isEmpty, body ++ u) := by
  rw [headers_lines h, Bool.false_or]
  obtain ⟨b', rfl⟩ := List.getLast?_eq_some_iff.mp hb
  have := headers_none (had := !hs.isEmpty) (u := b') (v := c!"\n" :: u) (by simp) (.inr ⟨_, rfl⟩) (fun h => hc (by simp [h]))
  simpa using this

/-- Decoding up to the base64 text of the first block. -/
theorem step_eq {x typ body eol eol' rest : Bytes} {hs : List Bytes} (hx : Other x) (hx' : x = [] ∨ x.getLast? = some c!"\n") (hn : c!"\n" ∉ typ)
    (hcol : c!":" ∉ typ ∨ body ≠ []) (he' : eol' ∈ eols) (hhs : ∀ h ∈ hs, Header h) (h0 : hs = [] ∨ body ≠ [])
    (h1 : body = [] ∨ body.getLast? = some c!"\n") (hp : ∀ c ∈ body, c ≠ c!"-" ∧ c ≠ c!":")
    (he : eol ∈ eols ∨ (eol = [] ∧ rest = [])) :
    step (x ++ frame typ eol' hs body (typ ++ b!"-----") ++ eol ++ rest) =
      match Base64.decode ((body.take (body.length - 1)).filter fun c => !blank c) with
      | .none => .again (body ++ b!"-----END " ++ (typ ++ b!"-----" ++ eol ++ rest))
      | some b => .block typ b rest := by
  have hh : headers false (hs.flatten ++ (body ++ b!"-----END " ++ (typ ++ b!"-----" ++ eol ++ rest))) =
      some (!hs.isEmpty, body ++ b!"-----END " ++ (typ ++ b!"-----" ++ eol ++ rest)) := by
    by_cases hb : body = []
    · replace hcol := hcol.resolve_right (· hb)
      replace h0 := h0.resolve_right (· hb)
      subst hb; subst h0
      rcases he with he | ⟨rfl, rfl⟩
      · simp only [eols, List.mem_cons, List.not_mem_nil, or_false] at he
        rcases he with rfl | rfl
        · have := headers_none (had := false) (u := b!"-----END " ++ typ ++ b!"-----") (v := c!"\n" :: rest) (by simp) (.inr ⟨_, rfl⟩)
            (by simp [hcol])
          simpa using this
        · have := headers_none (had := false) (u := b!"-----END " ++ typ ++ b!"-----" ++ b!"\r") (v := c!"\n" :: rest) (by simp)
            (.inr ⟨_, rfl⟩) (by simp [hcol])
          simpa using this
      · have := headers_none (had := false) (u := b!"-----END " ++ typ ++ b!"-----") (v := []) (by simp) (.inl rfl) (by simp [hcol])
        simpa using this
    · have := headers_body hhs (u := b!"-----END " ++ (typ ++ b!"-----" ++ eol ++ rest)) (h1.resolve_left hb) (fun h => (hp _ h).2 rfl)
      simpa using this
  have := step_begin hx hx' hn he' hh
  rw [last_eq (h0.imp (fun h => by simp [h]) id) hn h1 (fun c hc => (hp c hc).1) he] at this
  rw [← this]
  simp [frame]

/-- A last line that does not fit. -/
theorem last_other {had : Bool} {typ body z eol rest : Bytes} (hn : c!"\n" ∉ typ) (h1 : body.getLast? = some c!"\n")
    (hp : ∀ c ∈ body, c ≠ c!"-") (hz : Line z) (hne : z ≠ typ ++ b!"-----") (he : eol ∈ eols) :
    last typ had (body ++ b!"-----END " ++ (z ++ eol ++ rest)) = .again (body ++ b!"-----END " ++ (z ++ eol ++ rest)) := by
  have hb : body ≠ [] := by intro h; rw [h] at h1; simp at h1
  unfold last
  rw [end_found (.inr hb) (.inr h1) hp, if_neg hb]
  simp only
  have hd : (body ++ b!"-----END " ++ (z ++ eol ++ rest)).drop (body.length + 9) = z ++ eol ++ rest := by
    rw [List.drop_left' (by simp)]
  rw [hd]
  split
  · rfl
  · rename_i hl
    split
    · rfl
    · rename_i hps
      split
      · rfl
      · rename_i hg
        exfalso
        simp only [not_or, Decidable.not_not] at hps
        obtain ⟨⟨t, ht⟩, hs⟩ := And.intro (hasPrefix_iff.mp hps.1) hps.2
        have hd5 : dashes.length = 5 := rfl
        have hlen : t.length = 5 := by
          have := congrArg List.length ht
          rw [List.length_take, List.length_append, hd5] at this
          omega
        have hs' : dashes <:+ (z ++ eol ++ rest).take (typ.length + dashes.length) := by
          simpa [hasSuffix] using hs
        obtain ⟨q, hq⟩ := hs'
        have hqt : q = typ ∧ dashes = t := List.append_inj' (hq.trans ht.symm) (by rw [hlen]; rfl)
        have htk : z ++ eol ++ rest = (typ ++ b!"-----") ++ (z ++ eol ++ rest).drop (typ.length + dashes.length) := by
          conv => lhs; rw [← List.take_append_drop (typ.length + dashes.length) (z ++ eol ++ rest)]
          rw [← ht, ← hqt.2]; rfl
        have hw : ∃ w, z = (typ ++ b!"-----") ++ w := by
          rw [List.append_assoc] at htk
          rcases List.append_eq_append_iff.mp htk with ⟨w, hw, hw'⟩ | ⟨w, hw, _⟩
          · -- `typ ++ "-----"` reaches into the end of the line
            cases w with
            | nil => exact ⟨[], by rw [List.append_nil]; rw [List.append_nil] at hw; exact hw.symm⟩
            | cons y w =>
              exfalso
              have hnl : c!"\n" ∉ y :: w := fun h => by
                have : c!"\n" ∈ typ ++ b!"-----" := by rw [hw]; exact List.mem_append_right _ h
                simp [hn] at this
              simp only [eols, List.mem_cons, List.not_mem_nil, or_false] at he
              rcases he with rfl | rfl
              · simp at hw'
                exact hnl (by simp [hw'.1])
              · cases w with
                | nil =>
                  simp at hw'
                  have := congrArg List.getLast? hw
                  rw [← hw'.1] at this
                  simp at this
                | cons y' w =>
                  simp at hw'
                  exact hnl (by simp [hw'.2.1])
          · exact ⟨w, hw⟩
        obtain ⟨w, rfl⟩ := hw
        have hw0 : w ≠ [] := by rintro rfl; exact hne (by simp)
        apply hg
        rw [show (typ ++ b!"-----" ++ w ++ eol ++ rest).drop (typ.length + dashes.length) = w ++ eol ++ rest by
          rw [List.append_assoc (typ ++ b!"-----"), List.append_assoc (typ ++ b!"-----"), List.drop_left' (by simp [dashes])]]
        rw [getLine_eol (fun h => hz.1 (by simp [h])) ?_ (.inl he)]
        · exact hw0
        · intro c hc
          have := hz.2 c (by rw [List.getLast?_append, hc]; rfl)
          simp only [List.mem_cons, List.not_mem_nil, or_false, not_or] at this
          simp [blank, this]

theorem decode_of_step {d t b rest : Bytes} (hs : step d = .block t b rest) : decode d = some (t, b, rest) := by
  unfold decode
  split
  · rename_i h; rw [hs] at h; cases h
  · rename_i h; rw [hs] at h; cases h; rfl
  · rename_i h; rw [hs] at h; cases h

theorem decode_again {d rest : Bytes} (hs : step d = .again rest) : decode d = decode rest := by
  conv => lhs; unfold decode
  split
  · rename_i h; rw [hs] at h; cases h
  · rename_i h; rw [hs] at h; cases h
  · rename_i h; rw [hs] at h; cases h; rfl

/-- A block in front of anything. -/
theorem decode_block {x typ b text eol rest : Bytes} (hx : Other x) (hx' : x = [] ∨ x.getLast? = some c!"\n") (h : Block typ b text)
    (he : eol ∈ eols ∨ (eol = [] ∧ rest = [])) : decode (x ++ text ++ eol ++ rest) = some (typ, b, rest) := by
  obtain ⟨hn, hcol, eol', he', hs, body, hhs, h0, hb, rfl⟩ := h
  apply decode_of_step
  rw [step_eq hx hx' hn (.inl hcol) he' hhs h0 hb.1 (body_plain hb) he, filter_body hb]

theorem groups_bad (s : Bytes) : ∀ {c : Byte}, c ∈ s → Base64.decChar c = none → c ≠ c!"=" → Base64.groups s = none := by
  induction hn : s.length using Nat.strongRecOn generalizing s with
  | _ n ih =>
    subst hn
    intro c hc h1 h2
    match s with
    | [] => simp at hc
    | [_] => rfl
    | [_, _] => rfl
    | [_, _, _] => rfl
    | c0 :: c1 :: c2 :: c3 :: rest =>
      rw [Base64.groups]
      split
      · rename_i d0 d1 e0 e1
        split
        · rename_i d2 d3 e2 e3
          rw [ih rest.length (by simp; omega) rest rfl (c := c) ?_ h1 h2]
          · rfl
          · simp only [List.mem_cons] at hc
            rcases hc with rfl | rfl | rfl | rfl | hc
            · rw [h1] at e0; cases e0
            · rw [h1] at e1; cases e1
            · rw [h1] at e2; cases e2
            · rw [h1] at e3; cases e3
            · exact hc
        · rename_i d2 e2 e3
          rw [if_neg]
          rintro ⟨rfl, rfl⟩
          simp only [List.mem_cons, List.not_mem_nil, or_false] at hc
          rcases hc with rfl | rfl | rfl | rfl
          · rw [h1] at e0; cases e0
          · rw [h1] at e1; cases e1
          · rw [h1] at e2; cases e2
          · exact h2 rfl
        · rename_i e2
          rw [if_neg]
          rintro ⟨rfl, rfl, rfl⟩
          simp only [List.mem_cons, List.not_mem_nil, or_false] at hc
          rcases hc with rfl | rfl | rfl | rfl
          · rw [h1] at e0; cases e0
          · rw [h1] at e1; cases e1
          · exact h2 rfl
          · exact h2 rfl
      · rfl

theorem decChar_none : ∀ c : Byte, c ∉ Spec.Base64.alphabet → Base64.decChar c = none := by
  apply forall_byte
  decide +kernel

/-- A broken block is passed over. -/
theorem decode_broken {x text eol rest : Bytes} (hx : Other x) (hx' : x = [] ∨ x.getLast? = some c!"\n") (h : Broken text) (he : eol ∈ eols) :
    ∃ y, Other y ∧ y.getLast? = some c!"\n" ∧ (y ++ rest).length < (x ++ text ++ eol ++ rest).length ∧
      decode (x ++ text ++ eol ++ rest) = decode (y ++ rest) := by
  obtain ⟨typ, eol', hs, body, z, hn, he', hhs, hb, hd, hc, hz, hbad, rfl⟩ := h
  have hb0 : body ≠ [] := by intro h; rw [h] at hb; simp at hb
  have hs : step (x ++ frame typ eol' hs body z ++ eol ++ rest) = .again (body ++ b!"-----END " ++ (z ++ eol ++ rest)) := by
    by_cases hzt : z = typ ++ b!"-----"
    · obtain ⟨c, hcb, hc1, hc2⟩ := hbad hzt
      rw [hzt, step_eq hx hx' hn (.inr hb0) he' hhs (.inr hb0) (.inr hb) (fun c h => ⟨fun e => hd (e ▸ h), fun e => hc (e ▸ h)⟩) (.inl he)]
      have hbad : Base64.decode ((body.take (body.length - 1)).filter fun c => !blank c) = none := by
        unfold Base64.decode
        refine groups_bad _ (c := c) ?_ (decChar_none c hc1) (fun e => hc2 (by rw [e]; simp))
        rw [List.mem_filter, List.mem_filter]
        obtain ⟨l, rfl⟩ := List.getLast?_eq_some_iff.mp hb
        simp only [List.mem_cons, List.not_mem_nil, or_false, not_or] at hc2
        refine ⟨⟨?_, by simp [blank, hc2]⟩, by simp [hc2]⟩
        rw [show (l ++ [c!"\n"]).length - 1 = l.length by simp, List.take_left' rfl]
        rcases List.mem_append.mp hcb with h | h
        · exact h
        · simp [hc2] at h
      rw [hbad]
    · have hh := headers_body hhs (u := b!"-----END " ++ (z ++ eol ++ rest)) hb hc
      have := step_begin hx hx' hn he' hh
      rw [← List.append_assoc body, last_other hn hb (fun c h e => hd (e ▸ h)) hz hzt he] at this
      rw [← this]
      simp [frame]
  refine ⟨body ++ (b!"-----END " ++ z ++ eol), ?_, ?_, ?_, ?_⟩
  · refine other_append (other_plain hd) (.inr hb) (other_line (by simp [hz.1]) ?_ he)
    rintro ⟨t, ht⟩
    simp at ht
  · simp only [eols, List.mem_cons, List.not_mem_nil, or_false] at he
    rw [← List.append_assoc, List.getLast?_append]
    rcases he with rfl | rfl <;> rfl
  · simp [frame]
    omega
  · rw [decode_again hs]
    simp

/-- The beginning of a block is passed over. -/
theorem decode_cut {x text rest : Bytes} (hx : Other x) (hx' : x = [] ∨ x.getLast? = some c!"\n") (h : Cut text) (hr : b!"-----BEGIN " <+: rest) :
    ∃ y, Other y ∧ (y = [] ∨ y.getLast? = some c!"\n") ∧ (y ++ rest).length < (x ++ text ++ rest).length ∧
      decode (x ++ text ++ rest) = decode (y ++ rest) := by
  rcases h with ⟨l, eol, hl, hd, he, rfl⟩ | ⟨typ, eol, hs, body, hn, he, hhs, hb, hd, hc, rfl⟩
  · refine ⟨[], other_plain (by simp), .inl rfl, by simp; omega, ?_⟩
    apply decode_again
    unfold step
    rw [show x ++ (b!"-----BEGIN " ++ l ++ eol) ++ rest = x ++ b!"-----BEGIN " ++ (l ++ eol ++ rest) by simp, begin_found hx hx']
    simp only
    rw [getLine_eol hl.1 ?_ (.inl he)]
    · simp only
      rw [if_pos]
      · rfl
      · simpa [hasSuffix, dashes] using hd
    · intro c hc
      have := hl.2 c hc
      simp only [List.mem_cons, List.not_mem_nil, or_false, not_or] at this
      simp [blank, this]
  · refine ⟨body, other_plain hd, .inr hb, by simp; omega, ?_⟩
    apply decode_again
    have hh := headers_body hhs (u := rest) hb hc
    have := step_begin hx hx' hn he hh
    rw [show x ++ (b!"-----BEGIN " ++ typ ++ b!"-----" ++ eol ++ hs.flatten ++ body) ++ rest =
      x ++ b!"-----BEGIN " ++ (typ ++ b!"-----" ++ eol ++ (hs.flatten ++ (body ++ rest))) by simp, this]
    obtain ⟨b', rfl⟩ := List.getLast?_eq_some_iff.mp hb
    obtain ⟨t, rfl⟩ := hr
    have hd' : c!"-" ∉ b' := fun h => hd (by simp [h])
    unfold last
    cases he : end? (!hs.isEmpty) (b' ++ [c!"\n"] ++ (b!"-----BEGIN " ++ t)) with
    | none => rfl
    | some ij =>
      obtain ⟨i, j⟩ := ij
      have hi : b'.length + 1 < i := by
        unfold end? at he
        split at he
        · rename_i hpre
          obtain ⟨q, hq⟩ := hasPrefix_iff.mp hpre.2
          exfalso
          cases b' with
          | nil => simp [fin] at hq
          | cons y b' =>
            simp [fin] at hq
            exact hd' (by rw [hq.1]; simp)
        · cases hx : index (b' ++ [c!"\n"] ++ (b!"-----BEGIN " ++ t)) fin with
          | none => rw [hx] at he; cases he
          | some k =>
            rw [hx] at he
            cases he
            obtain ⟨a, b, hab, ha, _⟩ := index_some hx
            subst ha
            have g : ∀ n, (b' ++ [c!"\n"] ++ (b!"-----BEGIN " ++ t))[a.length + n]? = (fin ++ b)[n]? := by
              intro n
              rw [hab, List.append_assoc, List.getElem?_append_right (by omega)]
              congr 1; omega
            apply Decidable.byContradiction
            intro hlt
            have hcase : a.length < b'.length ∨ a.length = b'.length ∨ a.length = b'.length + 1 := by omega
            rcases hcase with h | h | h
            · have h1 := g 1
              by_cases h2 : a.length + 1 < b'.length
              · rw [List.append_assoc, List.getElem?_append_left h2] at h1
                exact hd' (List.mem_of_getElem? h1)
              · rw [List.append_assoc, List.getElem?_append_right (by omega), show a.length + 1 - b'.length = 0 by omega] at h1
                simp [fin] at h1
            · have h1 := g 6
              rw [List.append_assoc, List.getElem?_append_right (by omega), show a.length + 6 - b'.length = 6 by omega] at h1
              simp [fin] at h1
            · have h1 := g 0
              rw [List.append_assoc, List.getElem?_append_right (by omega), show a.length + 0 - b'.length = 1 by omega] at h1
              simp [fin] at h1
      simp only
      split
      · rfl
      · split
        · rfl
        · split
          · rfl
          · have hbad : Base64.decode (((b' ++ [c!"\n"] ++ (b!"-----BEGIN " ++ t)).take i).filter fun c => !blank c) = none := by
              unfold Base64.decode
              refine groups_bad _ (c := c!"-") ?_ (by decide) (by decide)
              rw [List.mem_filter, List.mem_filter]
              refine ⟨⟨?_, by decide⟩, by decide⟩
              refine List.mem_of_getElem? (i := b'.length + 1) ?_
              rw [List.getElem?_take_of_lt hi, List.append_assoc, List.getElem?_append_right (by omega),
                show b'.length + 1 - b'.length = 1 by omega]
              rfl
            rw [hbad]

theorem decode_other {x : Bytes} (hx : Other x) : decode x = none := by
  have hs : step x = .none := by
    unfold step
    rw [begin_none hx]
  unfold decode
  split
  · rfl
  · rename_i h; rw [hs] at h; cases h
  · rename_i h; rw [hs] at h; cases h

/-- Other text in front of a file. -/
theorem file_behind {x d : Bytes} {bs : List (Bytes × Bytes)} (hx : Other x) (hx' : x = [] ∨ x.getLast? = some c!"\n") (h : File d bs) :
    File (x ++ d) bs := by
  have hend : ∀ y : Bytes, (y = [] ∨ y.getLast? = some c!"\n") → (x ++ y = [] ∨ (x ++ y).getLast? = some c!"\n") := by
    intro y hy
    by_cases h0 : y = []
    · rw [h0, List.append_nil]; exact hx'
    · right
      rw [List.getLast?_append, hy.resolve_left h0]
      rfl
  cases h with
  | done hy => exact .done (other_append hx hx' hy)
  | @block y typ b text eol rest bs hy hy' hb he hr =>
    have := File.block (other_append hx hx' hy) (hend y hy') hb he hr
    simpa using this
  | @broken y text eol rest bs hy hy' hb he hr =>
    have := File.broken (other_append hx hx' hy) (hend y hy') hb he hr
    simpa using this
  | @cut y text rest bs hy hy' hb he hr =>
    have := File.cut (other_append hx hx' hy) (hend y hy') hb he hr
    simpa using this

end Verif.Go.Pem
