import Verif.Props.LineReader

/-!
# C02: the limit of a reader whose limit is not set

Model: `Verif/Lineproto/Reader.lean`.
-/

namespace Verif.Props.LineDefault

open Verif Verif.Lineproto Verif.Spec Verif.Props.LineReader

variable {Z : Type} (I : Inflater Z)

/-- The states of a reader whose limit is never set. -/
inductive Unset : Reader Z → Prop
  | new (s : Src) (d : Byte) : Unset (newReader s d)
  | readLine {r r' : Reader Z} {res} (fuel : Nat) : Unset r → r.readLine I fuel = .val (res, r') → Unset r'
  | read {r r' : Reader Z} {res} (fuel n : Nat) : Unset r → r.read I fuel n = .val (res, r') → Unset r'
  | enableZlib {r r' : Reader Z} {res} (fuel : Nat) (sched) : Unset r → r.enableZlib I fuel sched = .val (res, r') → Unset r'
  | onLine {r : Reader Z} (f : Bytes → Hook) : Unset r → Unset (r.addHook f)
  | close {r : Reader Z} : Unset r → Unset r.close

theorem Unset.reachable {r : Reader Z} (h : Unset I r) : Reachable I r ∧ r.maxLine = 32768 := by
  induction h with
  | new s d => exact ⟨.new s d, rfl⟩
  | @readLine r r' res fuel _ hr ih =>
    obtain ⟨l, e⟩ := res
    exact ⟨.readLine fuel ih.1 hr, (readLine_len I (reachable_small I ih.1) hr).2.1.trans ih.2⟩
  | read fuel n _ hr ih => exact ⟨.read fuel n ih.1 hr, (read_small I (reachable_small I ih.1) hr).2.trans ih.2⟩
  | enableZlib fuel sched _ hr ih => exact ⟨.enableZlib fuel sched ih.1 hr, (enableZlib_small I (reachable_small I ih.1) hr).2.trans ih.2⟩
  | onLine f _ ih => exact ⟨.onLine f ih.1, ih.2⟩
  | close _ ih => exact ⟨.close ih.1, ih.2⟩

/-- **C02.** A reader whose limit is not set never returns more than 34815 bytes at once. -/
theorem default_bounded {r r' : Reader Z} (h : Unset I r) {fuel : Nat} {line : Bytes} {e : Option Err}
    (hr : r.readLine I fuel = .val ((line, e), r')) : line.length ≤ 34815 := by
  have := readLine_bounded I h.reachable.1 (by rw [h.reachable.2]; decide) hr
  rw [h.reachable.2] at this
  omega

/-- **C02.** A reader whose limit is not set accepts lines of 32768 bytes. -/
theorem default_legal (s : Src) (hs : DataOnly s) (delim : Byte) (l rest : Bytes) (hl : IsLine delim l) (hb : bytesOf s = l ++ rest)
    (hmax : l.length ≤ 32768) : ∃ r', (newReader s delim : Reader Z).ReadsLine I (l, none) r' := by
  have := readLine_legal I s hs delim 32768 l rest hl hb (.inr (by omega))
  exact this

theorem prefix_or {b p : Bytes} {x y : List Item} (h : b.map Item.byte ++ x = p.map Item.byte ++ y) :
    (∃ b', b = p ++ b' ∧ y = b'.map Item.byte ++ x) ∨ b.length ≤ p.length := by
  induction b generalizing p with
  | nil => exact .inr (by simp)
  | cons c b ih =>
    cases p with
    | nil => exact .inl ⟨c :: b, rfl, by simpa using h.symm⟩
    | cons d p =>
      simp only [List.map_cons, List.cons_append, List.cons.injEq, Item.byte.injEq] at h
      obtain ⟨rfl, h⟩ := h
      rcases ih h with ⟨b', rfl, e⟩ | hl
      · exact .inl ⟨b', rfl, e⟩
      · exact .inr (by simpa using hl)

theorem loop_refuses (w : Nat) : ∀ (r : Reader Z) (acc body : Bytes) (rest : List Item) (m : Nat),
    r.Rem I (body.map Item.byte ++ rest) w m → r.delim ∉ body → r.maxLine > 0 → ((acc ++ body).length : Int) ≥ r.maxLine →
    r.onLine = [] →
    ∃ k r', (∀ fuel ≥ k, r.readLoop I fuel acc = .val (([], some .bufferExhausted), r')) ∨
      ∃ line, line.length > (acc ++ body).length ∧ ∀ fuel ≥ k, r.readLoop I fuel acc = .val ((line, none), r') := by
  induction w using Nat.strongRecOn with
  | ind w ih =>
    intro r acc body rest m hrem hb hmax hlen hh
    have stop : ∀ {r : Reader Z} {its w m} {acc : Bytes}, r.Rem I its w m → r.maxLine > 0 → (acc.length : Int) ≥ r.maxLine →
        ∀ fuel ≥ 1, r.readLoop I fuel acc = .val (([], some .bufferExhausted), r) := by
      intro r its w m acc hrem hmax hlen fuel hf
      obtain ⟨f', rfl⟩ : ∃ f', fuel = f' + 1 := ⟨fuel - 1, by omega⟩
      obtain ⟨b, hb⟩ := hrem.orig_some
      simp only [Reader.readLoop, hb]
      rw [if_pos ⟨hmax, hlen⟩]
    by_cases hm : r.maxLine > 0 ∧ (acc.length : Int) ≥ r.maxLine
    · exact ⟨1, r, .inl (stop hrem hm.1 hm.2)⟩
    have hbody : body ≠ [] := by
      rintro rfl
      simp only [List.append_nil] at hlen
      exact hm ⟨hmax, hlen⟩
    obtain ⟨k, r1, hcfg, hcase⟩ := Reader.loop_step I r _ w m acc hrem hm
    obtain ⟨hc1, hc2, hc3, -, -⟩ := hcfg
    rcases hcase with ⟨h, _⟩ | ⟨e, its', w', m', h, _⟩ | ⟨p, its', w', m', h, hp, hrem', hlt, hm', hloop⟩ |
        ⟨p, its', w', m', h, hp, hrem', hlt, hm', hloop⟩
    · simp [hbody] at h
    · cases body <;> simp at h hbody
    · rcases prefix_or h with ⟨b', rfl, rfl⟩ | hl
      · obtain ⟨k2, r2, h2⟩ := ih w' hlt r1 (acc ++ p) b' rest m' hrem' (by rw [hc1]; simp at hb; exact hb.2) (by rw [hc2]; exact hmax)
          (by rw [hc2]; simpa using hlen) (by rw [hc3]; exact hh)
        refine ⟨max k k2 + 1, r2, ?_⟩
        rcases h2 with h2 | ⟨line, hl, h2⟩
        · refine .inl fun fuel hf => ?_
          obtain ⟨f', rfl⟩ : ∃ f', fuel = f' + 1 := ⟨fuel - 1, by omega⟩
          rw [hloop f' (by omega), h2 f' (by omega)]
        · refine .inr ⟨line, by simpa using hl, fun fuel hf => ?_⟩
          obtain ⟨f', rfl⟩ : ∃ f', fuel = f' + 1 := ⟨fuel - 1, by omega⟩
          rw [hloop f' (by omega), h2 f' (by omega)]
      · refine ⟨k + 2, r1, .inl fun fuel hf => ?_⟩
        obtain ⟨f', rfl⟩ : ∃ f', fuel = f' + 1 := ⟨fuel - 1, by omega⟩
        rw [hloop f' (by omega)]
        refine stop hrem' (by rw [hc2]; exact hmax) ?_ f' (by omega)
        rw [hc2]; simp only [List.length_append] at hlen ⊢; omega
    · refine ⟨k + 1, r1, .inr ⟨acc ++ (p ++ [r.delim]), ?_, fun fuel hf => ?_⟩⟩
      · rcases prefix_or h with ⟨b', rfl, -⟩ | hl
        · simp at hb
        · have : body.length ≠ (p ++ [r.delim]).length := by
            intro e
            have := List.append_inj_left h (by simpa using e)
            have : body = p ++ [r.delim] := by
              refine List.map_inj_right ?_ |>.mp this
              intro a b h; cases h; rfl
            rw [this] at hb; simp at hb
          simp only [List.length_append] at this hl ⊢; omega
      · obtain ⟨f', rfl⟩ : ∃ f', fuel = f' + 1 := ⟨fuel - 1, by omega⟩
        rw [hloop f' (by omega)]
        simp [Reader.finish, hc3, hh, runHooks]

/-- **C02 (long lines are refused).** When there are `max + 2047` bytes or more before the next delimiter, `ReadLine` reports that the
line is too long, and returns no data. -/
theorem long_refused (s : Src) (hs : DataOnly s) (delim : Byte) (max : Int) (hmax : max > 0) (body rest : Bytes) (hd : delim ∉ body)
    (hb : bytesOf s = body ++ rest) (hlen : (body.length : Int) ≥ max + 2047) :
    ∃ r', ((newReader s delim : Reader Z).setMaxLine max).ReadsLine I ([], some .bufferExhausted) r' := by
  have hrem := rem_new I s delim max []
  rw [items_of_dataOnly hs, hb, List.map_append] at hrem
  obtain ⟨k, r', h⟩ := loop_refuses I _ _ [] body _ _ hrem hd hmax (by simp only [List.nil_append]; show max ≤ _; omega) rfl
  rcases h with h | ⟨line, hl, h⟩
  · exact ⟨r', k, fun fuel hf => (Reader.readLine_of_rem I hrem fuel).trans (h fuel hf)⟩
  · have h1 := (Reader.readLine_of_rem I hrem k).trans (h k (by omega))
    have := readLine_bounded I (r := (newReader s delim : Reader Z).setMaxLine max) (.setMaxLine max (.new s delim)) hmax h1
    have e : ((newReader s delim : Reader Z).setMaxLine max).maxLine = max := rfl
    rw [e] at this
    simp only [List.nil_append] at hl
    omega

/-- **C02.** The same for a reader whose limit is not set. -/
theorem default_refused (s : Src) (hs : DataOnly s) (delim : Byte) (body rest : Bytes) (hd : delim ∉ body)
    (hb : bytesOf s = body ++ rest) (hlen : body.length ≥ 34815) :
    ∃ r', (newReader s delim : Reader Z).ReadsLine I ([], some .bufferExhausted) r' :=
  long_refused I s hs delim 32768 (by decide) body rest hd hb (by omega)

example (n : Nat) : IsLine 124 (List.replicate n 97 ++ [124]) ∧ bytesOf [⟨List.replicate n 97 ++ [124], none⟩] = List.replicate n 97 ++ [124] := by
  refine ⟨⟨_, ?_, rfl⟩, by simp [bytesOf]⟩
  simp [List.mem_replicate]

end Verif.Props.LineDefault
