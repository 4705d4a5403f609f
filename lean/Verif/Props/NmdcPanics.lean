import Verif.Props.NmdcReads
import Verif.Props.NmdcMessages

/-!
# Exactly which payloads make an NMDC decoder panic (C30)

`NmdcMessages.decoders_never_panic_partial` gives a necessary condition; here it is made exact.
-/

namespace Verif.Props.NmdcPanics

open Verif.Go Verif.Spec Verif.Nmdc Verif.Tiger Verif.Spec.NmdcReads Verif.Spec.NmdcWire Verif.Props.NmdcReads

/-- A text that fills the 24 bytes of a hash and goes on: line ends aside, it begins with forty characters of the alphabet. -/
def Overfull (h : Bytes) : Prop :=
  40 ≤ (h.filter fun c => c ≠ c!"\r" ∧ c ≠ c!"\n").length ∧
    ∀ c ∈ (h.filter fun c => c ≠ c!"\r" ∧ c ≠ c!"\n").take 40, c ∈ Base32.alphabet

/-- A search by hash that is correct up to the hash, which is too long: `who restricted?max?size?9?TTH:hash`, and maybe a `$`. -/
def FatalSearch [HtmlEntities] (dec : Codec) (d : Bytes) : Prop :=
  ∃ w q f0 f1 f2 f3 b h r1 r2 r3, First b!" " d w q ∧
    ((∃ n u, w = b!"Hub:" ++ n ∧ ReadsName dec n u) ∨ ¬ Begins b!"Hub:" w) ∧
    First b!"?" q f0 r1 ∧ First b!"?" r1 f1 r2 ∧ First b!"?" r2 f2 r3 ∧ First b!"?" r3 f3 (b!"TTH:" ++ b) ∧
    (f0 = b!"T" ∨ f0 = b!"F") ∧ (f1 = b!"T" ∨ f1 = b!"F") ∧
    (f2 = [] ∨ (∃ t n, f2 = b!"-" ++ t ∧ ReadsNat t n) ∨ (¬ Begins b!"-" f2 ∧ ∃ n, ReadsNat f2 n)) ∧
    ReadsNat f3 9 ∧ Without b!"$" b h ∧ Overfull h

theorem bind_eq_panic {α β : Type} {x : Res α} {f : α → Res β} :
    (x >>= f) = .panic ↔ x = .panic ∨ ∃ a, x = .ok a ∧ f a = .panic := by
  cases x <;> simp

section
variable [HtmlEntities] {dec : Codec} {d : Bytes}

omit [HtmlEntities] in
theorem flag_some {f : Bytes} : (∃ v, boolFlag f = .ok v) ↔ f = b!"T" ∨ f = b!"F" := by
  simp only [flag_iff, Flag]
  constructor
  · rintro ⟨v, ⟨h, -⟩ | ⟨h, -⟩⟩
    · exact .inl h
    · exact .inr h
  · rintro (h | h)
    · exact ⟨true, .inl ⟨h, rfl⟩⟩
    · exact ⟨false, .inr ⟨h, rfl⟩⟩

omit [HtmlEntities] in
theorem nat_ne_nil {n : Nat} : ¬ ReadsNat [] n := by
  rw [← nat_reads]; intro h
  have : parseUin64Trim [] = .err (Err.other 1) ∨ ∃ e, parseUin64Trim [] = .err e := .inr ⟨_, rfl⟩
  obtain h' | ⟨e, h'⟩ := this <;> rw [h'] at h <;> cases h

omit [HtmlEntities] in
theorem size_some {old : Nat} {f : Bytes} : (∃ x, Search.sizeField old f = .ok x) ↔
    f = [] ∨ (∃ t n, f = b!"-" ++ t ∧ ReadsNat t n) ∨ (¬ Begins b!"-" f ∧ ∃ n, ReadsNat f n) := by
  constructor
  · rintro ⟨⟨x, n⟩, h⟩
    rcases sizeField_iff.mp h with ⟨h1, -⟩ | ⟨t, k, h1, h2, -⟩ | ⟨h1, h2, h3, -⟩
    · exact .inl h1
    · exact .inr (.inl ⟨t, k, h1, h2⟩)
    · exact .inr (.inr ⟨h2, n, h3⟩)
  · rintro (h | ⟨t, n, h1, h2⟩ | ⟨h1, n, h2⟩)
    · exact ⟨(false, old), sizeField_iff.mpr (.inl ⟨h, rfl, rfl⟩)⟩
    · exact ⟨(true, 0), sizeField_iff.mpr (.inr (.inl ⟨t, n, h1, h2, rfl, rfl⟩))⟩
    · exact ⟨(false, n), sizeField_iff.mpr (.inr (.inr ⟨fun h => nat_ne_nil (h ▸ h2), h1, h2, rfl⟩))⟩

theorem target_panic {m : Search} {t : Nat} {f : Bytes} : Search.target dec m t f = .panic ↔
    t = 9 ∧ ∃ b h, f = b!"TTH:" ++ b ∧ Without b!"$" b h ∧ Overfull h := by
  unfold Search.target
  by_cases ht : t = 9
  · simp only [ht, if_true, true_and]
    rcases view_prefix f b!"TTH:" with ⟨k1, k2, k3⟩ | ⟨b, rfl, k1, k2, k3, k4⟩
    · simp only [k1, Bool.false_eq_true, if_false, reduceCtorEq, false_iff]
      rintro ⟨b, h, e, -⟩
      exact k3 _ e
    · have k2 : sliceFrom (b!"TTH:" ++ b) 4 = .ok b := k2
      simp only [k1, if_true, k2, Res.ok_bind, bind_eq_panic, reduceCtorEq, and_false, exists_false, or_false,
        Identifiers.unmarshalBase32_panic_iff, without_byte]
      constructor
      · intro h; exact ⟨b, _, rfl, rfl, h⟩
      · rintro ⟨b', _, h1, rfl, h2⟩
        cases List.append_cancel_left h1
        exact h2
  · simp only [ht, if_false, false_and, iff_false]
    exact Res.bind_ne_panic (str_unmarshal_ne_panic _ _) (fun _ _ => by simp)

theorem searchString_panic {m : Search} : Search.unmarshalString dec m d = .panic ↔
    ∃ f0 f1 f2 f3 b h r1 r2 r3, First b!"?" d f0 r1 ∧ First b!"?" r1 f1 r2 ∧
      First b!"?" r2 f2 r3 ∧ First b!"?" r3 f3 (b!"TTH:" ++ b) ∧
      (f0 = b!"T" ∨ f0 = b!"F") ∧ (f1 = b!"T" ∨ f1 = b!"F") ∧
      (f2 = [] ∨ (∃ t n, f2 = b!"-" ++ t ∧ ReadsNat t n) ∨ (¬ Begins b!"-" f2 ∧ ∃ n, ReadsNat f2 n)) ∧
      ReadsNat f3 9 ∧ Without b!"$" b h ∧ Overfull h := by
  have hb : ∀ x, boolFlag x ≠ .panic := by intro x; unfold boolFlag; repeat' split <;> simp
  have hsz : ∀ k x, Search.sizeField k x ≠ .panic := by
    intro k x; unfold Search.sizeField; repeat' np
  have hn : ∀ x, parseUin64Trim x ≠ .panic := parseUin64Trim_ne_panic
  unfold Search.unmarshalString
  constructor
  · intro h
    split at h
    · rename_i f0 f1 f2 f3 f4 hs
      obtain ⟨r1, r2, r3, s1, s2, s3, s4⟩ := splitMax5.mp hs
      simp only [bind_eq_panic, hb, hsz, hn, false_or, target_panic, Res.pure_eq, reduceCtorEq, and_false, exists_false, or_false] at h
      obtain ⟨v, h1, x, h2, z, h3, t, h4, rfl, b, h, rfl, h5, h6⟩ := h
      exact ⟨f0, f1, f2, f3, b, h, r1, r2, r3, s1, s2, s3, s4, flag_some.mp ⟨_, h1⟩, flag_some.mp ⟨_, h2⟩, size_some.mp ⟨_, h3⟩,
        nat_reads.mp h4, h5, h6⟩
    · cases h
  · rintro ⟨f0, f1, f2, f3, b, h, r1, r2, r3, s1, s2, s3, s4, h1, h2, h3, h4, h5, h6⟩
    rw [splitMax5.mpr ⟨r1, r2, r3, s1, s2, s3, s4⟩]
    obtain ⟨v, h1⟩ := flag_some.mpr h1
    obtain ⟨x, h2⟩ := flag_some.mpr h2
    obtain ⟨z, h3⟩ := (size_some (old := m.size)).mpr h3
    have ht : Search.target dec m 9 (b!"TTH:" ++ b) = .panic := target_panic.mpr ⟨rfl, b, h, rfl, h5, h6⟩
    simp only [h1, h2, h3, nat_reads.mpr h4, Res.ok_bind, ht]
    rfl

/-- **C30, exactly for searches.** -/
theorem search_panics_iff {m : Search} : m.unmarshal dec d = .panic ↔ FatalSearch dec d := by
  unfold Search.unmarshal FatalSearch
  rcases view_byte d c!" " with ⟨h1, -, h2⟩ | ⟨w, q, h1, h2, h3, -, hf, h4⟩
  · simp [h1, h2]
  simp only [h1, h2, h3, Res.ok_bind]
  rcases view_prefix w b!"Hub:" with ⟨k1, k2, k3⟩ | ⟨n, hw, k1, k2, k3, k4⟩
  · rw [k1]
    simp only [Bool.false_eq_true, if_false, searchString_panic]
    constructor
    · rintro ⟨f0, f1, f2, f3, b, hh, r1, r2, r3, h⟩
      exact ⟨w, q, f0, f1, f2, f3, b, hh, r1, r2, r3, hf, .inr k2, h⟩
    · rintro ⟨w', q', f0, f1, f2, f3, b, hh, r1, r2, r3, s1, s2, h⟩
      obtain ⟨rfl, rfl⟩ := (h4 _ _).mp s1
      exact ⟨f0, f1, f2, f3, b, hh, r1, r2, r3, h⟩
  · have k2 : sliceFrom w 4 = .ok n := k2
    simp only [k1, if_true, k2, Res.ok_bind, bind_eq_panic, name_unmarshal_ne_panic, false_or, name_reads, searchString_panic]
    constructor
    · rintro ⟨u, hu, f0, f1, f2, f3, b, hh, r1, r2, r3, h⟩
      exact ⟨w, q, f0, f1, f2, f3, b, hh, r1, r2, r3, hf, .inl ⟨n, u, hw, hu⟩, h⟩
    · rintro ⟨w', q', f0, f1, f2, f3, b, hh, r1, r2, r3, s1, s2, h⟩
      obtain ⟨rfl, rfl⟩ := (h4 _ _).mp s1
      rcases s2 with ⟨n', u, e, hn⟩ | e
      · rw [(k4 _).mp e] at hn
        exact ⟨u, hn, f0, f1, f2, f3, b, hh, r1, r2, r3, h⟩
      · exact absurd k3 e

/-- **C30, exactly.** The decoder of a message panics on a payload if and only if the message is a search and the payload a fatal
one; the previous value of the message does not matter. -/
theorem decoders_panic_iff {m : Msg} : m.unmarshal dec d = .panic ↔ (∃ s, m = .search s) ∧ FatalSearch dec d := by
  by_cases hm : ∃ s, m = .search s
  · obtain ⟨s, rfl⟩ := hm
    simp only [Msg.unmarshal, bind_eq_panic, search_panics_iff]
    simp
  · simp only [hm, false_and, iff_false]
    by_cases hr : m.isRaw = true
    · exact NmdcMessages.decoders_never_panic_partial (.inr (.inl hr))
    · refine NmdcMessages.decoders_never_panic_partial (.inl ?_)
      intro ht
      cases m <;> simp_all [Msg.typ, Msg.isRaw]
      all_goals first
        | (rename_i k _; cases k <;> cases ht; done)
        | (rename_i k; cases k <;> cases ht; done)

end

section
attribute [local instance] basicEntities

/-- The search that panics. -/
example : FatalSearch none (b!"1.2.3.4:412 F?T?0?9?TTH:" ++ List.replicate 40 c!"A") :=
  search_panics_iff (m := {}).mp (by decide +kernel)

end

end Verif.Props.NmdcPanics
