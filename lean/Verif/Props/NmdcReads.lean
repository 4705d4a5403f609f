import Verif.Nmdc.ReadsLemmas
import Verif.Nmdc.Message
import Verif.Nmdc.SearchLemmas
import Verif.Nmdc.PanicLemmas
import Verif.Props.Identifiers

/-!
# Which texts the NMDC decoders accept, and as what (C72)
-/

namespace Verif.Props.NmdcReads

open Verif.Go Verif.Spec Verif.Nmdc Verif.Tiger Verif.Spec.NmdcReads Verif.Spec.NmdcWire
open Verif.Spec.AdcWire (Parts)

section
variable [HtmlEntities] {dec : Codec} {d : Bytes}

theorem private_reads {old m : PrivateMessage} : old.unmarshal dec d = .ok m ↔ ReadsPrivate dec d m := by
  unfold PrivateMessage.unmarshal ReadsPrivate
  rcases view_index d b!" From: " with ⟨h1, -, h2⟩ | ⟨a, r1, h1, h2, h3, -, hf, h4⟩
  · simp [h1, h2]
  have h3 : sliceFrom d (a.length + 7) = .ok r1 := h3
  simp only [h1, h2, h3, Res.ok_bind]
  rcases view_index r1 b!" $<" with ⟨k1, -, k2⟩ | ⟨b, r2, k1, k2, k3, -, kf, k4⟩
  · simp only [k1, Res.bind_eq_ok, reduceCtorEq, and_false, exists_false, false_iff]
    rintro ⟨a', b', c', t', r1', r2', f1, f2, -⟩
    obtain ⟨rfl, rfl⟩ := (h4 _ _).mp f1
    exact k2 _ _ f2
  have k3 : sliceFrom r1 (b.length + 3) = .ok r2 := k3
  simp only [k1, k2, k3, Res.ok_bind]
  rcases view_index r2 b!"> " with ⟨l1, -, l2⟩ | ⟨c, t, l1, l2, l3, -, lf, l4⟩
  · simp only [l1, Res.bind_eq_ok, reduceCtorEq, and_false, exists_false, false_iff]
    rintro ⟨a', b', c', t', r1', r2', f1, f2, f3, -⟩
    obtain ⟨rfl, rfl⟩ := (h4 _ _).mp f1
    obtain ⟨rfl, rfl⟩ := (k4 _ _).mp f2
    exact l2 _ _ f3
  have l3 : sliceFrom r2 (c.length + 2) = .ok t := l3
  simp only [l1, l2, l3, Res.ok_bind, Res.bind_eq_ok, Res.pure_eq, Res.ok.injEq, name_reads, str_reads]
  constructor
  · rintro ⟨x, hx, y, hy, z, hz, w, hw, rfl⟩
    exact ⟨a, b, c, t, r1, r2, hf, kf, lf, hx, hy, hz, hw⟩
  · rintro ⟨a', b', c', t', r1', r2', f1, f2, f3, hx, hy, hz, hw⟩
    obtain ⟨rfl, rfl⟩ := (h4 _ _).mp f1
    obtain ⟨rfl, rfl⟩ := (k4 _ _).mp f2
    obtain ⟨rfl, rfl⟩ := (l4 _ _).mp f3
    exact ⟨_, hx, _, hy, _, hz, _, hw, rfl⟩

theorem mcTo_reads {old m : MCTo} : old.unmarshal dec d = .ok m ↔ ReadsMCTo dec d m := by
  unfold MCTo.unmarshal ReadsMCTo
  rcases view_index d b!" $" with ⟨h1, -, h2⟩ | ⟨a, r1, h1, h2, h3, -, hf, h4⟩
  · simp [h1, h2]
  have h3 : sliceFrom d (a.length + 2) = .ok r1 := h3
  simp only [h1, h2, h3, Res.ok_bind]
  rcases view_byte r1 c!" " with ⟨k1, -, k2⟩ | ⟨b, t, k1, k2, k3, -, kf, k4⟩
  · simp only [k1, Res.bind_eq_ok, reduceCtorEq, and_false, exists_false, false_iff]
    rintro ⟨a', b', t', r1', f1, f2, -⟩
    obtain ⟨rfl, rfl⟩ := (h4 _ _).mp f1
    exact k2 _ _ f2
  simp only [k1, k2, k3, Res.ok_bind, Res.bind_eq_ok, Res.pure_eq, Res.ok.injEq, name_reads, str_reads]
  constructor
  · rintro ⟨x, hx, y, hy, w, hw, rfl⟩
    exact ⟨a, b, t, r1, hf, kf, hx, hy, hw⟩
  · rintro ⟨a', b', t', r1', f1, f2, hx, hy, hw⟩
    obtain ⟨rfl, rfl⟩ := (h4 _ _).mp f1
    obtain ⟨rfl, rfl⟩ := (k4 _ _).mp f2
    exact ⟨_, hx, _, hy, _, hw, rfl⟩

theorem rctm_reads {old m : RevConnectToMe} : old.unmarshal dec d = .ok m ↔ ReadsRctm dec d m := by
  unfold RevConnectToMe.unmarshal ReadsRctm
  rcases view_byte d c!" " with ⟨h1, -, h2⟩ | ⟨a, b, h1, h2, h3, -, hf, h4⟩
  · simp [h1, h2]
  simp only [h1, h2, h3, Res.ok_bind, Res.bind_eq_ok, Res.pure_eq, Res.ok.injEq, name_reads]
  constructor
  · rintro ⟨x, hx, y, hy, rfl⟩
    exact ⟨a, b, hf, hx, hy⟩
  · rintro ⟨a', b', f1, hx, hy⟩
    obtain ⟨rfl, rfl⟩ := (h4 _ _).mp f1
    exact ⟨_, hx, _, hy, rfl⟩

omit [HtmlEntities] in
theorem ctmAddress_iff {addr a : Bytes} {k : Int} {s : Bool} : CtmAddress addr a k s ↔ ctmFlags addr = (a, k, s) := by
  constructor
  · intro h
    cases h with
    | plain h =>
      unfold ctmFlags
      have h' : ∀ c, c = c!"S" ∨ c = c!"N" ∨ c = c!"R" → addr.getLast? ≠ some c := by
        intro c hc hl
        have := h c hl
        rcases hc with rfl | rfl | rfl
        · exact this.1 rfl
        · exact this.2.1 rfl
        · exact this.2.2 rfl
      simp [h' c!"S" (by simp), h' c!"N" (by simp), h' c!"R" (by simp)]
    | kindN => simp [ctmFlags]
    | kindR => simp [ctmFlags]
    | secure h =>
      unfold ctmFlags
      have h' : ∀ c, c = c!"N" ∨ c = c!"R" → a.getLast? ≠ some c := by
        intro c hc hl
        have := h c hl
        rcases hc with rfl | rfl
        · exact this.1 rfl
        · exact this.2 rfl
      simp [h' c!"N" (by simp), h' c!"R" (by simp)]
    | secureN =>
      have : ctmFlags ((a ++ [c!"N"]) ++ [c!"S"]) = (a, 1, true) := by simp [ctmFlags]
      simpa using this
    | secureR =>
      have : ctmFlags ((a ++ [c!"R"]) ++ [c!"S"]) = (a, 2, true) := by simp [ctmFlags]
      simpa using this
  · intro h
    unfold ctmFlags at h
    rcases List.eq_nil_or_concat addr with rfl | ⟨u, x, rfl⟩
    · simp at h; obtain ⟨rfl, rfl, rfl⟩ := h; exact .plain (by simp)
    · rw [List.concat_eq_append] at h ⊢
      by_cases hx : x = c!"S"
      · subst hx
        simp only [List.getLast?_append, List.getLast?_singleton, Option.some_or, if_true, decide_true, List.dropLast_concat] at h
        split at h
        · rename_i hn
          obtain ⟨rfl, rfl, rfl⟩ : _ ∧ _ ∧ _ := by simpa using h
          rcases List.eq_nil_or_concat u with rfl | ⟨v, y, rfl⟩
          · simp at hn
          · have : y = c!"N" := by simpa using hn
            subst this
            have := CtmAddress.secureN (a := v)
            simpa using this
        · rename_i hn
          split at h
          · rename_i hr
            obtain ⟨rfl, rfl, rfl⟩ : _ ∧ _ ∧ _ := by simpa using h
            rcases List.eq_nil_or_concat u with rfl | ⟨v, y, rfl⟩
            · simp at hr
            · have : y = c!"R" := by simpa using hr
              subst this
              have := CtmAddress.secureR (a := v)
              simpa using this
          · rename_i hr
            obtain ⟨rfl, rfl, rfl⟩ : _ ∧ _ ∧ _ := by simpa using h
            exact .secure (fun b hb => ⟨fun e => hn (e ▸ hb), fun e => hr (e ▸ hb)⟩)
      · have e1 : (u ++ [x]).getLast? = some x := by simp
        have e2 : (some x = some c!"S") = False := by simp [hx]
        simp only [e1, e2, if_false, decide_false, List.dropLast_concat, Option.some.injEq] at h
        split at h
        · rename_i hn
          subst hn
          obtain ⟨rfl, rfl, rfl⟩ : _ ∧ _ ∧ _ := by simpa using h
          exact .kindN
        · rename_i hn
          split at h
          · rename_i hr
            subst hr
            obtain ⟨rfl, rfl, rfl⟩ : _ ∧ _ ∧ _ := by simpa using h
            exact .kindR
          · rename_i hr
            obtain ⟨rfl, rfl, rfl⟩ : _ ∧ _ ∧ _ := by simpa using h
            exact .plain (fun b hb => by rw [e1] at hb; cases hb; exact ⟨hx, hn, hr⟩)

theorem ctm_reads {old m : ConnectToMe} : old.unmarshal dec d = .ok m ↔ ReadsCtm dec old d m := by
  unfold ConnectToMe.unmarshal ReadsCtm
  rcases view_byte d c!" " with ⟨h1, -, h2⟩ | ⟨a, r, h1, h2, h3, -, hf, h4⟩
  · simp [h1, h2]
  simp only [h1, h2, h3, Res.ok_bind, Res.bind_eq_ok, Res.pure_eq, name_reads]
  rcases view_byte r c!" " with ⟨k1, ka, k2⟩ | ⟨b, t, k1, k2, k3, ka, kf, k4⟩
  · simp only [k1, Res.ok.injEq]
    constructor
    · rintro ⟨x, hx, rfl⟩
      exact ⟨a, r, r, (ctmFlags r).2.2, hf, hx, ctmAddress_iff.mpr rfl, rfl, .inl ⟨ka, rfl, rfl⟩⟩
    · rintro ⟨a', r', ad, s, f1, hx, hc, hs, h⟩
      obtain ⟨rfl, rfl⟩ := (h4 _ _).mp f1
      rcases h with ⟨-, rfl, h⟩ | ⟨b, f2, -⟩
      · refine ⟨_, hx, ?_⟩
        rw [ctmAddress_iff] at hc
        simp only [hc, ← hs, ← h]
      · exact absurd f2 (k2 _ _)
  · simp only [k1, k2, k3, Res.ok_bind, Res.bind_eq_ok, name_reads, Res.ok.injEq]
    constructor
    · rintro ⟨x, hx, y, hy, rfl⟩
      exact ⟨a, r, b, (ctmFlags b).2.2, hf, hx, ctmAddress_iff.mpr rfl, rfl, .inr ⟨t, kf, hy⟩⟩
    · rintro ⟨a', r', ad, s, f1, hx, hc, hs, h⟩
      obtain ⟨rfl, rfl⟩ := (h4 _ _).mp f1
      rcases h with ⟨h, -⟩ | ⟨b, f2, hy⟩
      · exact absurd h ka
      · obtain ⟨rfl, rfl⟩ := (k4 _ _).mp f2
        refine ⟨_, hx, _, hy, ?_⟩
        rw [ctmAddress_iff] at hc
        simp only [hc, ← hs]

theorem err_reads {old e : Option Bytes} : ErrMsg.unmarshal dec old d = .ok e ↔ ReadsErr dec old d e := by
  unfold ErrMsg.unmarshal ReadsErr
  simp only [Res.bind_eq_ok, str_reads, Res.pure_eq, Res.ok.injEq]
  constructor
  · rintro ⟨s, h, rfl⟩
    refine ⟨s, h, ?_⟩
    by_cases hs : s = [] <;> simp [hs]
  · rintro ⟨s, h, ⟨rfl, rfl⟩ | ⟨hs, rfl⟩⟩
    · exact ⟨_, h, by simp⟩
    · exact ⟨_, h, by simp [hs]⟩

end

theorem lockBody_reads {d : Bytes} {n : Bool} {m : Lock} : Lock.body n d = .ok m ↔ m.noExt = n ∧ ReadsLockBody d m := by
  unfold Lock.body ReadsLockBody
  obtain ⟨e, l, p, f⟩ := m
  rcases view_byte d c!" " with ⟨h1, ha, h2⟩ | ⟨a, r, h1, h2, h3, ha, hf, h4⟩
  · simp only [h1, Res.pure_eq, Res.ok.injEq, Lock.mk.injEq, ha, true_and, h2, false_and, exists_false, or_false]
    simp only [eq_comm]
  simp only [h1, h2, h3, Res.ok_bind, ha, false_and, false_or]
  have key : ∀ k : Bytes, ((match index k b!"Ref=" with
      | some i => do
        let r ← sliceFrom k (i + 4)
        pure { noExt := n, lock := a, pk := k.take i, ref := r }
      | none => pure { noExt := n, lock := a, pk := k } : Res Lock) = .ok ⟨e, l, p, f⟩) ↔
      e = n ∧ l = a ∧ (First b!"Ref=" k p f ∨ (Absent b!"Ref=" k ∧ p = k ∧ f = [])) := by
    intro k
    rcases view_index k b!"Ref=" with ⟨k1, ka, k2⟩ | ⟨b, t, k1, k2, k3, ka, kf, k4⟩
    · simp only [k1, k2, ka, Res.pure_eq, Res.ok.injEq, Lock.mk.injEq, true_and, false_or]
      constructor
      · rintro ⟨rfl, rfl, rfl, rfl⟩; exact ⟨rfl, rfl, rfl, rfl⟩
      · rintro ⟨rfl, rfl, rfl, rfl⟩; exact ⟨rfl, rfl, rfl, rfl⟩
    · have k3 : sliceFrom k (b.length + 4) = .ok t := k3
      simp only [k1, k2, k3, k4, ka, Res.ok_bind, Res.pure_eq, Res.ok.injEq, Lock.mk.injEq, false_and, or_false]
      constructor
      · rintro ⟨rfl, rfl, rfl, rfl⟩; exact ⟨rfl, rfl, rfl, rfl⟩
      · rintro ⟨rfl, rfl, rfl, rfl⟩; exact ⟨rfl, rfl, rfl, rfl⟩
  rcases view_prefix r b!"Pk=" with ⟨k1, k2, k3⟩ | ⟨t, rfl, k1, k2, k3, k4⟩
  · rw [k1]
    simp only [Bool.false_eq_true, if_false, Res.pure_eq, Res.ok_bind]
    refine (key r).trans ?_
    constructor
    · rintro ⟨h5, h6, h7⟩
      exact ⟨h5, r, r, (h4 _ _).mpr ⟨h6, rfl⟩, .inr ⟨k2, rfl⟩, h7⟩
    · rintro ⟨h5, r', k, f1, h6, h7⟩
      obtain ⟨rfl, rfl⟩ := (h4 _ _).mp f1
      rcases h6 with h6 | ⟨-, rfl⟩
      · exact absurd h6 (k3 _)
      · exact ⟨h5, rfl, h7⟩
  · have k2 : sliceFrom (b!"Pk=" ++ t) 3 = .ok t := k2
    rw [k1, if_pos rfl, k2, Res.ok_bind]
    refine (key t).trans ?_
    constructor
    · rintro ⟨h5, h6, h7⟩
      exact ⟨h5, _, t, (h4 _ _).mpr ⟨h6, rfl⟩, .inl rfl, h7⟩
    · rintro ⟨h5, r', k, f1, h6, h7⟩
      obtain ⟨rfl, rfl⟩ := (h4 _ _).mp f1
      rcases h6 with h6 | ⟨h6, -⟩
      · rw [(k4 _).mp h6] at h7
        exact ⟨h5, rfl, h7⟩
      · exact absurd k3 h6

theorem lock_reads {d : Bytes} {m : Lock} : Lock.unmarshal d = .ok m ↔ ReadsLock d m := by
  unfold Lock.unmarshal ReadsLock extLockPref
  rcases view_prefix d b!"EXTENDEDPROTOCOL" with ⟨k1, k2, k3⟩ | ⟨t, rfl, k1, k2, k3, k4⟩
  · simp only [k1, k2, k3, Bool.false_eq_true, if_false, lockBody_reads, false_and, exists_false, false_or, not_false_eq_true, true_and]
  · have k2 : sliceFrom (b!"EXTENDEDPROTOCOL" ++ t) 16 = .ok t := k2
    simp only [k1, k2, k3, if_true, Res.ok_bind, lockBody_reads, not_true_eq_false, false_and, or_false]
    simp

/-! ## Files -/

theorem cutSpace_iff {d a b : Bytes} : cutSpace d = .ok (a, b) ↔ First b!" " d a b := by
  unfold cutSpace
  rcases view_byte d c!" " with ⟨h1, ha, h2⟩ | ⟨x, r, h1, h2, h3, ha, hf, h4⟩
  · simp [h1, h2]
  · simp only [h1, h2, h3, Res.ok_bind, Res.pure_eq, Res.ok.injEq, Prod.mk.injEq]
    rw [h4]
    constructor <;> (rintro ⟨rfl, rfl⟩; exact ⟨rfl, rfl⟩)

theorem cutSpaceOpt_iff {d a b : Bytes} : cutSpaceOpt d = .ok (a, b) ↔ First b!" " d a b ∨ (Absent b!" " d ∧ a = d ∧ b = []) := by
  unfold cutSpaceOpt
  rcases view_byte d c!" " with ⟨h1, ha, h2⟩ | ⟨x, r, h1, h2, h3, ha, hf, h4⟩
  · simp only [h1, h2, ha, Res.ok.injEq, Prod.mk.injEq, false_or, true_and]
    constructor <;> (rintro ⟨rfl, rfl⟩; exact ⟨rfl, rfl⟩)
  · simp only [h1, h2, h3, Res.ok_bind, Res.pure_eq, Res.ok.injEq, Prod.mk.injEq]
    rw [h4]
    simp only [ha, false_and, or_false]
    constructor <;> (rintro ⟨rfl, rfl⟩; exact ⟨rfl, rfl⟩)

/-- What is left of the number of bytes that were downloaded. -/
def Down (fs : List Bytes) (old new : Option Nat) : Prop :=
  (new = old ∧ ∀ f ∈ fs, ¬ Begins b!"DB" f) ∨
    ∃ l f r n, fs = l ++ f :: r ∧ DB f n ∧ new = some n ∧ ∀ g ∈ r, ¬ Begins b!"DB" g

theorem db_unique {f : Bytes} {n k : Nat} (h : DB f n) (h' : DB f k) : n = k := by
  obtain ⟨r, h1, h2⟩ := h
  obtain ⟨r', h3, h4⟩ := h'
  rw [h1] at h3
  cases List.append_cancel_left h3
  rw [← nat_reads] at h2 h4
  rw [h2] at h4
  exact Res.ok.inj h4

theorem db_begins {f : Bytes} {n : Nat} (h : DB f n) : Begins b!"DB" f := ⟨_, h.choose_spec.1⟩

theorem down_skip {f : Bytes} {fs : List Bytes} {old new : Option Nat} (h : ¬ Begins b!"DB" f) : Down (f :: fs) old new ↔ Down fs old new := by
  constructor
  · rintro (⟨h1, h2⟩ | ⟨l, g, r, n, h1, h2, h3, h4⟩)
    · exact .inl ⟨h1, fun g hg => h2 g (by simp [hg])⟩
    · cases l with
      | nil => simp at h1; exact absurd (db_begins (h1.1 ▸ h2)) h
      | cons x l => simp at h1; exact .inr ⟨l, g, r, n, h1.2, h2, h3, h4⟩
  · rintro (⟨h1, h2⟩ | ⟨l, g, r, n, h1, h2, h3, h4⟩)
    · refine .inl ⟨h1, fun g hg => ?_⟩
      rcases List.mem_cons.mp hg with rfl | hg
      · exact h
      · exact h2 g hg
    · exact .inr ⟨f :: l, g, r, n, by simp [h1], h2, h3, h4⟩

theorem down_take {f : Bytes} {fs : List Bytes} {old new : Option Nat} {n : Nat} (h : DB f n) : Down (f :: fs) old new ↔ Down fs (some n) new := by
  constructor
  · rintro (⟨h1, h2⟩ | ⟨l, g, r, k, h1, h2, h3, h4⟩)
    · exact absurd (db_begins h) (h2 f (by simp))
    · cases l with
      | nil =>
        simp at h1
        obtain ⟨rfl, rfl⟩ := h1
        exact .inl ⟨by rw [h3, db_unique h h2], h4⟩
      | cons x l => simp at h1; exact .inr ⟨l, g, r, k, h1.2, h2, h3, h4⟩
  · rintro (⟨h1, h2⟩ | ⟨l, g, r, k, h1, h2, h3, h4⟩)
    · exact .inr ⟨[], f, fs, n, rfl, h, h1, h2⟩
    · exact .inr ⟨f :: l, g, r, k, by simp [h1], h2, h3, h4⟩

theorem getFlags_iff {fs : List Bytes} {m0 m : ADCGet} : adcGetFlags fs m0 = .ok m ↔
    m = { m0 with compressed := m.compressed, downloaded := m.downloaded } ∧ (m.compressed = true ↔ m0.compressed = true ∨ b!"ZL1" ∈ fs) ∧
      (∀ f ∈ fs, Begins b!"DB" f → ∃ n, DB f n) ∧ Down fs m0.downloaded m.downloaded := by
  induction fs generalizing m0 with
  | nil =>
    obtain ⟨t, i, s, l, c, w⟩ := m0
    obtain ⟨t', i', s', l', c', w'⟩ := m
    simp only [adcGetFlags, Res.ok.injEq, ADCGet.mk.injEq, Down]
    constructor
    · rintro ⟨rfl, rfl, rfl, rfl, rfl, rfl⟩; simp
    · rintro ⟨⟨rfl, rfl, rfl, rfl, -, -⟩, h1, -, h2⟩
      refine ⟨rfl, rfl, rfl, rfl, ?_, ?_⟩
      · cases c <;> cases c' <;> simp at h1 ⊢
      · rcases h2 with ⟨h2, -⟩ | ⟨l, f, r, n, h, -⟩
        · exact h2.symm
        · simp at h
  | cons f fs ih =>
    unfold adcGetFlags
    by_cases hz : f = b!"ZL1"
    · have hb : ¬ Begins b!"DB" f := by rw [hz, begins_iff]; decide
      rw [if_pos hz, ih, down_skip hb]
      simp only [List.mem_cons, forall_eq_or_imp, hz, true_or, or_true]
      have hb' : (Begins b!"DB" b!"ZL1" → ∃ n, DB b!"ZL1" n) ↔ True := by simp [hz ▸ hb]
      simp only [hb', true_and]
    · rw [if_neg hz]
      rcases view_prefix f b!"DB" with ⟨k1, k2, k3⟩ | ⟨t, rfl, k1, k2, k3, k4⟩
      · rw [k1, if_neg (by simp), ih, down_skip k2]
        have hz' : (b!"ZL1" ∈ f :: fs) ↔ b!"ZL1" ∈ fs := by simp only [List.mem_cons, or_iff_right_iff_imp]; exact fun h => absurd h.symm hz
        have hb : (∀ g ∈ f :: fs, Begins b!"DB" g → ∃ n, DB g n) ↔ ∀ g ∈ fs, Begins b!"DB" g → ∃ n, DB g n := by
          simp only [List.mem_cons, forall_eq_or_imp, k2, false_imp_iff, true_and]
        rw [hz', hb]
      · have k2 : sliceFrom (b!"DB" ++ t) 2 = .ok t := k2
        have hz' : (b!"ZL1" ∈ (b!"DB" ++ t) :: fs) ↔ b!"ZL1" ∈ fs := by
          simp only [List.mem_cons, or_iff_right_iff_imp]; exact fun h => absurd h.symm hz
        simp only [k1, if_true, k2, Res.ok_bind, Res.bind_eq_ok, mapErr_ok, nat_reads, ih]
        rw [hz']
        constructor
        · rintro ⟨n, hn, h1, h2, h3, h4⟩
          have hd : DB (b!"DB" ++ t) n := ⟨t, rfl, hn⟩
          refine ⟨h1, h2, ?_, (down_take hd).mpr h4⟩
          intro g hg
          rcases List.mem_cons.mp hg with rfl | hg
          · exact fun _ => ⟨n, hd⟩
          · exact h3 g hg
        · rintro ⟨h1, h2, h3, h4⟩
          obtain ⟨n, hd⟩ := h3 _ (by simp) k3
          obtain ⟨t', e, hn⟩ := hd
          cases List.append_cancel_left e
          exact ⟨n, hn, h1, h2, fun g hg => h3 g (by simp [hg]), (down_take ⟨t, rfl, hn⟩).mp h4⟩

section
variable [HtmlEntities] {dec : Codec} {d : Bytes}

theorem get_reads {old m : ADCGet} : old.unmarshal dec d = .ok m ↔ ReadsGet dec old d m := by
  unfold ADCGet.unmarshal ReadsGet ReadsRange
  simp only [Res.bind_eq_ok, mapErr_ok, nat_reads, str_reads]
  constructor
  · rintro ⟨⟨a, r1⟩, h1, ct, h2, ⟨b, r2⟩, h3, id, h4, ⟨c, r3⟩, h5, st, h6, ⟨l, rest⟩, h7, h8⟩
    rw [cutSpace_iff] at h1 h3 h5
    rw [cutSpaceOpt_iff] at h7
    obtain ⟨t', i', s', l', c', w'⟩ := m
    simp only at h8
    split at h8
    · rename_i hl
      simp only [Res.pure_eq, Res.ok_bind, getFlags_iff, ADCGet.mk.injEq, and_true] at h8
      obtain ⟨⟨rfl, rfl, rfl, rfl⟩, h10, h11, h12⟩ := h8
      exact ⟨l, rest, _, ⟨a, b, c, r1, r2, r3, h1, h3, h5, h2, h4, h6, h7⟩, .inl ⟨hl, rfl⟩, parts_split.mpr rfl, h10, h11, h12⟩
    · rename_i hl
      simp only [Res.bind_eq_ok, mapErr_ok, nat_reads, Res.pure_eq, Res.ok_bind, getFlags_iff, ADCGet.mk.injEq, and_true] at h8
      obtain ⟨n, hn, ⟨rfl, rfl, rfl, rfl⟩, h10, h11, h12⟩ := h8
      exact ⟨l, rest, _, ⟨a, b, c, r1, r2, r3, h1, h3, h5, h2, h4, h6, h7⟩, .inr ⟨hl, n, hn, rfl⟩, parts_split.mpr rfl, h10, h11, h12⟩
  · rintro ⟨l, rest, fs, ⟨a, b, c, r1, r2, r3, h1, h3, h5, h2, h4, h6, h7⟩, h8, h9, h10, h11, h12⟩
    rw [parts_split] at h9
    subst h9
    refine ⟨(a, r1), cutSpace_iff.mpr h1, _, h2, (b, r2), cutSpace_iff.mpr h3, _, h4, (c, r3), cutSpace_iff.mpr h5, _, h6, (l, rest),
      cutSpaceOpt_iff.mpr h7, ?_⟩
    rcases h8 with ⟨rfl, h8⟩ | ⟨hl, n, hn, h8⟩
    · simp only [if_true, Res.pure_eq, Res.ok_bind, getFlags_iff, ← h8]
      exact ⟨trivial, h10, h11, h12⟩
    · simp only [hl, if_false]
      simp only [Res.bind_eq_ok, mapErr_ok, nat_reads, Res.pure_eq, Res.ok_bind, getFlags_iff]
      exact ⟨n, hn, by rw [show toI64 n = m.length from h8.symm], h10, h11, h12⟩

theorem snd_reads {old m : ADCSnd} : old.unmarshal dec d = .ok m ↔ ReadsSnd dec old d m := by
  unfold ADCSnd.unmarshal ReadsSnd ReadsRange
  simp only [Res.bind_eq_ok, mapErr_ok, nat_reads, str_reads]
  constructor
  · rintro ⟨⟨a, r1⟩, h1, ct, h2, ⟨b, r2⟩, h3, id, h4, ⟨c, r3⟩, h5, st, h6, ⟨l, rest⟩, h7, len, h8, h9⟩
    rw [cutSpace_iff] at h1 h3 h5
    rw [cutSpaceOpt_iff] at h7
    simp only at h9
    split at h9
    · split at h9
      · cases h9
      · rename_i hz
        cases h9
        exact ⟨l, rest, ⟨a, b, c, r1, r2, r3, h1, h3, h5, h2, h4, h6, h7⟩, h8, .inr ⟨by simpa using hz, rfl⟩⟩
    · rename_i hz
      cases h9
      refine ⟨l, rest, ⟨a, b, c, r1, r2, r3, h1, h3, h5, h2, h4, h6, h7⟩, h8, .inl ⟨?_, rfl⟩⟩
      exact List.eq_nil_of_length_eq_zero (by omega)
  · rintro ⟨l, rest, ⟨a, b, c, r1, r2, r3, h1, h3, h5, h2, h4, h6, h7⟩, h8, h9⟩
    refine ⟨(a, r1), cutSpace_iff.mpr h1, _, h2, (b, r2), cutSpace_iff.mpr h3, _, h4, (c, r3), cutSpace_iff.mpr h5, _, h6, (l, rest),
      cutSpaceOpt_iff.mpr h7, _, h8, ?_⟩
    rcases h9 with ⟨rfl, h9⟩ | ⟨rfl, h9⟩
    · simp [← h9]
    · simp [← h9]

end

theorem direction_reads {d : Bytes} {m : Direction} : Direction.unmarshal d = .ok m ↔ ReadsDirection d m := by
  unfold Direction.unmarshal ReadsDirection
  simp only [Res.bind_eq_ok]
  have key : ∀ (b : Bytes) (u : Bool), ((mapErr (parseUin64Trim b) (.other 47) >>= fun n =>
      if n < 1 ∨ n > 32767 then .err (.other 48) else pure { upload := u, number := n } : Res Direction) = .ok m) ↔
      m.upload = u ∧ ReadsNat b m.number ∧ 1 ≤ m.number ∧ m.number ≤ 32767 := by
    intro b u
    simp only [Res.bind_eq_ok, mapErr_ok, nat_reads]
    constructor
    · rintro ⟨n, h1, h2⟩
      split at h2
      · cases h2
      · cases h2; exact ⟨rfl, h1, by simp only; omega, by simp only; omega⟩
    · rintro ⟨rfl, h1, h2, h3⟩
      exact ⟨_, h1, by rw [if_neg (by omega)]; rfl⟩
  constructor
  · rintro ⟨⟨a, b⟩, h1, h2⟩
    rw [cutSpace_iff] at h1
    simp only at h2
    split at h2
    · rename_i h
      obtain ⟨h3, h4⟩ := (key b false).mp h2
      exact ⟨a, b, h1, .inl ⟨h, h3⟩, h4⟩
    · split at h2
      · rename_i h
        obtain ⟨h3, h4⟩ := (key b true).mp h2
        exact ⟨a, b, h1, .inr ⟨h, h3⟩, h4⟩
      · cases h2
  · rintro ⟨a, b, h1, h2, h3⟩
    refine ⟨(a, b), cutSpace_iff.mpr h1, ?_⟩
    rcases h2 with ⟨rfl, h⟩ | ⟨rfl, h⟩
    · exact (key b false).mpr ⟨h, h3⟩
    · exact (key b true).mpr ⟨h, h3⟩

/-! ## Lists -/

theorem filter_trimLeft (d : Bytes) (c : Byte) :
    (split (trimLeft d (· = c)) c).filter (· ≠ []) = (split d c).filter (· ≠ []) := by
  induction d with
  | nil => rfl
  | cons x d ih =>
    unfold trimLeft at ih ⊢
    by_cases h : x = c
    · subst h
      rw [List.dropWhile_cons]
      simp only [decide_true, if_true]
      rw [ih]; simp [split]
    · simp [h]

theorem split_snoc (d : Bytes) (c : Byte) : split (d ++ [c]) c = split d c ++ [[]] := by
  induction d with
  | nil => simp [split]
  | cons x d ih =>
    rw [List.cons_append, split, split, ih]
    by_cases h : x = c
    · simp [h]
    · simp only [h, if_false]
      cases hs : split d c with
      | nil => exact absurd hs (split_ne_nil _ _)
      | cons p ps => rfl

theorem filter_trimRight (d : Bytes) (c : Byte) :
    (split (trimRight d (· = c)) c).filter (· ≠ []) = (split d c).filter (· ≠ []) := by
  generalize hn : d.length = n
  induction n generalizing d with
  | zero => cases List.eq_nil_of_length_eq_zero hn; rfl
  | succ n ih =>
    rcases List.eq_nil_or_concat d with rfl | ⟨u, x, rfl⟩
    · rfl
    · rw [List.concat_eq_append] at hn ⊢
      by_cases h : x = c
      · subst h
        rw [trimRight_append_cut (by simp), ih u (by simpa using hn), split_snoc]
        simp
      · rw [trimRight_snoc (by simp [h])]

theorem supports_reads {d : Bytes} {l : List Bytes} : Supports.unmarshal d = .ok l ↔ ∃ ps, l = ps.filter (· ≠ []) ∧ Parts c!" " d ps := by
  unfold Supports.unmarshal
  rw [filter_trimRight, filter_trimLeft, Res.ok.injEq]
  constructor
  · rintro rfl; exact ⟨_, rfl, parts_split.mpr rfl⟩
  · rintro ⟨ps, rfl, h⟩
    rw [parts_split.mp h]

section
variable [HtmlEntities] {dec : Codec} {d : Bytes}

theorem namesAll_iff {ps l : List Bytes} : Names.unmarshalAll dec ps = .ok l ↔ ReadsNames dec ps l := by
  induction ps generalizing l with
  | nil =>
    simp only [Names.unmarshalAll, Res.ok.injEq]
    constructor
    · rintro rfl; exact .nil
    · intro h; cases h; rfl
  | cons p ps ih =>
    simp only [Names.unmarshalAll, Res.bind_eq_ok, name_reads, ih, Res.pure_eq, Res.ok.injEq]
    constructor
    · rintro ⟨x, h1, xs, h2, rfl⟩; exact .cons h1 h2
    · intro h; cases h with | cons h1 h2 => exact ⟨_, h1, _, h2, rfl⟩

theorem names_reads {l : List Bytes} : Names.unmarshal dec d = .ok l ↔ ReadsNameList dec d l := by
  unfold Names.unmarshal ReadsNameList dd
  simp only [without_iff, exists_eq_left', cuts_iff]
  by_cases h : trimSuffix d b!"$$" = []
  · simp [h, eq_comm]
  · have h' : (trimSuffix d b!"$$").length ≠ 0 := by simpa using h
    rw [if_neg h', namesAll_iff]
    simp only [h, false_and, false_or, ne_eq, not_false_eq_true, true_and]

theorem address_reads {a : UserAddress} : UserIP.entry dec d = .ok a ↔ ReadsAddress dec d a := by
  unfold UserIP.entry ReadsAddress
  obtain ⟨n, ip⟩ := a
  rcases view_last d c!" " with ⟨h1, ha, h2⟩ | ⟨x, r, h1, h2, h3, ha, hf, h4⟩
  · simp only [h1, h2, ha, Res.pure_eq, Res.ok_bind, Res.bind_eq_ok, name_reads, Res.ok.injEq, UserAddress.mk.injEq, false_and, exists_false, false_or,
      true_and]
    constructor
    · rintro ⟨_, h, rfl, rfl⟩; exact ⟨rfl, h⟩
    · rintro ⟨rfl, h⟩; exact ⟨_, h, rfl, rfl⟩
  · simp only [h1, h2, h3, ha, Res.pure_eq, Res.ok_bind, Res.bind_eq_ok, name_reads, Res.ok.injEq, UserAddress.mk.injEq, false_and, or_false, h4]
    constructor
    · rintro ⟨_, h, rfl, rfl⟩; exact ⟨_, ⟨rfl, rfl⟩, h⟩
    · rintro ⟨_, ⟨rfl, rfl⟩, h⟩; exact ⟨_, h, rfl, rfl⟩

theorem entries_iff {ps : List Bytes} {l : List UserAddress} : UserIP.entries dec ps = .ok l ↔ ReadsAddresses dec ps l := by
  induction ps generalizing l with
  | nil =>
    simp only [UserIP.entries, Res.ok.injEq]
    constructor
    · rintro rfl; exact .nil
    · intro h; cases h; rfl
  | cons p ps ih =>
    simp only [UserIP.entries, Res.bind_eq_ok, address_reads, ih, Res.pure_eq, Res.ok.injEq]
    constructor
    · rintro ⟨x, h1, xs, h2, rfl⟩; exact .cons h1 h2
    · intro h; cases h with | cons h1 h2 => exact ⟨_, h1, _, h2, rfl⟩

theorem userIP_reads {l : List UserAddress} : UserIP.unmarshal dec d = .ok l ↔ ReadsUserIP dec d l := by
  unfold UserIP.unmarshal ReadsUserIP dd
  simp only [without_iff, cuts_iff, entries_iff]
  constructor
  · intro h; exact ⟨_, _, _, rfl, rfl, rfl, h⟩
  · rintro ⟨_, _, _, rfl, rfl, rfl, h⟩; exact h

end

/-! ## Hubs -/

theorem soft_reads {old s : Software} {f : Bytes} : ReadsSoft old f s ↔ s = old.parse f := by
  unfold ReadsSoft Software.parse
  obtain ⟨n, v⟩ := s
  rcases view_last f c!" " with ⟨h1, ha, h2⟩ | ⟨x, r, h1, h2, h3, ha, hf, h4⟩
  · simp only [h1, h2, ha, false_or, true_and, Software.mk.injEq]
  · have h5 : f.drop (x.length + 1) = r := by
      unfold sliceFrom at h3; split at h3 <;> simp at h3; exact h3
    simp only [h1, h2, h4, ha, h5, false_and, or_false, Software.mk.injEq]

theorem splitMax_eq (s : Bytes) (sep : Byte) (n : Nat) :
    splitMax s sep (n + 1) = (split s sep).take n ++ (if (split s sep).length ≤ n then [] else [join ((split s sep).drop n) sep]) := by
  induction n generalizing s with
  | zero =>
    have : (split s sep).length ≠ 0 := by simp [split_ne_nil]
    simp [splitMax, Verif.Adc.join_split, show ¬ (split s sep).length ≤ 0 by omega]
  | succ n ih =>
    cases hi : indexByte s sep with
    | some i =>
      obtain ⟨a, b, rfl, ha, -⟩ := indexByte_some hi
      rw [splitMax_append ha, split_append ha, ih]
      simp
    | none =>
      rw [indexByte_none] at hi
      rw [splitMax_of_not_mem hi, split_of_not_mem hi]
      simp

section
variable [HtmlEntities] {dec : Codec} {d : Bytes}

theorem hubFields_end (n i : Nat) (m : HubINFO) (l : List Bytes) : HubINFO.fields dec n (i + 11) m l = .ok m := by
  induction l generalizing i with
  | nil => rfl
  | cons f l ih =>
    rw [HubINFO.fields]
    have : HubINFO.field dec n (i + 11) m f = .ok m := rfl
    rw [this, Res.ok_bind, show i + 11 + 1 = (i + 1) + 11 by omega, ih]

/-- What the fields say, for at most eleven of them. -/
def HubSays (dec : Codec) (n : Nat) (old : HubINFO) (fs : List Bytes) (m : HubINFO) : Prop :=
  Field fs 0 (ReadsText dec · m.name) (m.name = old.name) ∧ Field fs 1 (m.host = ·) (m.host = old.host) ∧
    Field fs 2 (ReadsText dec · m.desc) (m.desc = old.desc) ∧ Field fs 3 (ReadsInt · m.i1) (m.i1 = old.i1) ∧
    Field fs 4 (ReadsInt · m.i2) (m.i2 = old.i2) ∧ Field fs 5 (ReadsInt · m.i3) (m.i3 = old.i3) ∧
    Field fs 6 (ReadsInt · m.i4) (m.i4 = old.i4) ∧ Field fs 7 (ReadsSoft old.soft · m.soft) (m.soft = old.soft) ∧
    Field fs 8 (ReadsText dec · m.owner) (m.owner = old.owner) ∧ Field fs 9 (ReadsText dec · m.state) (m.state = old.state) ∧
    Field fs 10 (fun f => m.encoding = if n ≤ 11 then f else old.encoding) (m.encoding = old.encoding)

theorem hubSays_iff {n : Nat} {old m : HubINFO} {fs : List Bytes} : HubINFO.fields dec n 0 old fs = .ok m ↔ HubSays dec n old fs m := by
  have hn : n < 12 ↔ n ≤ 11 := by omega
  obtain ⟨o0, o1, o2, o3, o4, o5, o6, o7, o8, o9, o10⟩ := old
  obtain ⟨m0, m1, m2, m3, m4, m5, m6, m7, m8, m9, m10⟩ := m
  unfold HubSays
  have h7 : HubINFO.fields dec n 11 = fun m _ => Res.ok m := by
    funext m l; exact hubFields_end n 0 m l
  rcases fs with _ | ⟨a0, _ | ⟨a1, _ | ⟨a2, _ | ⟨a3, _ | ⟨a4, _ | ⟨a5, _ | ⟨a6, _ | ⟨a7, _ | ⟨a8, _ | ⟨a9, _ | ⟨a10, l⟩⟩⟩⟩⟩⟩⟩⟩⟩⟩⟩
  all_goals
    simp only [HubINFO.field, Res.bind_eq_ok, hn, mapErr_ok, str_reads, int_reads, Field, List.getElem?_cons_zero,
      List.getElem?_cons_succ, List.getElem?_nil, soft_reads, Res.pure_eq, Res.ok.injEq, ex_through, exists_eq_left', HubINFO.fields,
      HubINFO.mk.injEq, h7]
    try (by_cases hn' : n ≤ 11 <;> simp only [hn', if_true, if_false, HubINFO.mk.injEq])
  all_goals grind

theorem hub_reads {old m : HubINFO} : old.unmarshal dec d = .ok m ↔ ReadsHub dec old d m := by
  unfold HubINFO.unmarshal ReadsHub
  simp only [hubSays_iff, parts_split, exists_eq_left']
  have hg : ∀ i, i < 12 → (splitMax d c!"$" 13)[i]? = (split d c!"$")[i]? := by
    intro i hi
    rw [splitMax_eq, List.getElem?_append]
    split
    · rw [List.getElem?_take, if_pos hi]
    · rename_i h
      rw [List.length_take] at h
      rw [if_pos (by omega), List.getElem?_eq_none (by simp), List.getElem?_eq_none (by omega)]
  have hl : (splitMax d c!"$" 13).length ≤ 11 ↔ (split d c!"$").length ≤ 11 := by
    rw [splitMax_eq]
    split
    · simp; omega
    · simp; omega
  unfold HubSays Field
  simp only [hg, hl, Nat.reduceLT]

end

/-! ## Searches -/

theorem shortSearch_iff {d r : Bytes} {h : Hash} :
    shortSearch d = .ok (h, r) ↔ ∃ t, t.length = 39 ∧ d = t ++ b!" " ++ r ∧ Base32.Names t h.bytes := by
  unfold shortSearch
  constructor
  · intro hs
    split at hs
    · cases hs
    · rename_i hl
      rw [at'_ok (by omega)] at hs
      simp only [Res.ok_bind] at hs
      split at hs
      · cases hs
      · rename_i hc
        rw [sliceFrom_ok (by omega)] at hs
        simp only [Res.ok_bind, Res.bind_eq_ok, Res.ok.injEq, Prod.mk.injEq, Identifiers.hash_buffer_exact] at hs
        obtain ⟨x, hx, rfl, rfl⟩ := hs
        refine ⟨d.take 39, by simp; omega, ?_, hx⟩
        have hc : d[39] = c!" " := by simpa using hc
        rw [← hc, List.append_assoc, List.singleton_append, List.getElem_cons_drop, List.take_append_drop]
  · rintro ⟨t, ht, rfl, hn⟩
    have e1 : (t ++ b!" " ++ r).take 39 = t := by rw [List.append_assoc, ← ht, List.take_left]
    rw [if_neg (by simp; omega), at'_ok (by simp; omega)]
    have e2 : (t ++ b!" " ++ r)[39]'(by simp; omega) = c!" " := by
      simp [ht]
    rw [e2, sliceFrom_ok (by simp; omega), e1]
    have e3 : (t ++ b!" " ++ r).drop 40 = r := by
      rw [show 40 = (t ++ b!" ").length by simp [ht], List.drop_left]
    simp only [e3, ne_eq, not_true_eq_false, if_false, Res.ok_bind, Res.bind_eq_ok, Identifiers.hash_buffer_exact]
    exact ⟨h, hn, rfl⟩

theorem sa_reads {d : Bytes} {m : SA} : SA.unmarshal d = .ok m ↔ ReadsSA d m := by
  unfold SA.unmarshal ReadsSA
  obtain ⟨h, a⟩ := m
  rw [← shortSearch_iff]
  simp only [Res.bind_eq_ok, Res.pure_eq, Res.ok.injEq, SA.mk.injEq]
  constructor
  · rintro ⟨⟨x, y⟩, h1, rfl, rfl⟩; exact h1
  · intro h1; exact ⟨_, h1, rfl, rfl⟩

theorem flag_iff {f : Bytes} {v : Bool} : boolFlag f = .ok v ↔ Flag f v := by
  unfold boolFlag Flag
  by_cases h1 : f = b!"T"
  · rw [if_pos h1]; subst h1; simp [eq_comm]
  · rw [if_neg h1]
    by_cases h2 : f = b!"F"
    · rw [if_pos h2]; subst h2; simp [eq_comm]
    · rw [if_neg h2]; simp [h1, h2]

theorem sizeField_iff {old n : Nat} {f : Bytes} {x : Bool} : Search.sizeField old f = .ok (x, n) ↔
    (f = [] ∧ n = old ∧ x = false) ∨ (∃ t k, f = b!"-" ++ t ∧ ReadsNat t k ∧ n = 0 ∧ x = true) ∨
      (f ≠ [] ∧ ¬ Begins b!"-" f ∧ ReadsNat f n ∧ x = false) := by
  unfold Search.sizeField
  cases f with
  | nil =>
    simp only [Res.ok.injEq, Prod.mk.injEq, true_and, List.cons_append, reduceCtorEq, false_and, exists_false, ne_eq, not_true_eq_false, or_false]
    constructor <;> (rintro ⟨rfl, rfl⟩; exact ⟨rfl, rfl⟩)
  | cons c t =>
    by_cases hc : c = c!"-"
    · subst hc
      simp only [if_true, Res.bind_eq_ok, nat_reads, Res.ok.injEq, Prod.mk.injEq]
      have hb : Begins b!"-" (c!"-" :: t) := ⟨t, rfl⟩
      simp only [hb, not_true_eq_false, false_and, and_false, or_false, reduceCtorEq, false_or]
      constructor
      · rintro ⟨k, h1, rfl, rfl⟩; exact ⟨t, k, rfl, h1, rfl, rfl⟩
      · rintro ⟨t', k, h1, h2, rfl, rfl⟩
        simp at h1; subst h1
        exact ⟨k, h2, rfl, rfl⟩
    · have hb : ¬ Begins b!"-" (c :: t) := by rintro ⟨r, h⟩; simp at h; exact hc h.1
      simp only [hc, if_false, Res.bind_eq_ok, nat_reads, Res.ok.injEq, Prod.mk.injEq, hb, not_false_eq_true, true_and, reduceCtorEq, false_and,
        false_or, ne_eq]
      constructor
      · rintro ⟨k, h1, rfl, rfl⟩; exact .inr ⟨h1, rfl⟩
      · rintro (⟨t', k, h1, -⟩ | ⟨h1, rfl⟩)
        · exact absurd ⟨t', h1⟩ hb
        · exact ⟨_, h1, rfl, rfl⟩

theorem splitMax5 {d : Bytes} {f0 f1 f2 f3 f4 : Bytes} : splitMax d c!"?" 5 = [f0, f1, f2, f3, f4] ↔
    ∃ r1 r2 r3, First b!"?" d f0 r1 ∧ First b!"?" r1 f1 r2 ∧ First b!"?" r2 f2 r3 ∧ First b!"?" r3 f3 f4 := by
  have step : ∀ (s : Bytes) (n : Nat) (x y : Bytes) (l : List Bytes), splitMax s c!"?" (n + 2) = x :: y :: l ↔
      ∃ r, First b!"?" s x r ∧ splitMax r c!"?" (n + 1) = y :: l := by
    intro s n x y l
    rcases view_byte s c!"?" with ⟨h1, ha, h2⟩ | ⟨a, r, h1, h2, h3, ha, hf, h4⟩
    · rw [splitMax_of_not_mem (absent_byte.mp ha)]
      simp [h2]
    · obtain ⟨ha, e⟩ := first_byte.mp hf
      rw [e, splitMax_append ha, ← e]
      simp only [h4, List.cons.injEq]
      constructor
      · rintro ⟨rfl, h⟩; exact ⟨_, ⟨rfl, rfl⟩, h⟩
      · rintro ⟨_, ⟨rfl, rfl⟩, h⟩; exact ⟨rfl, h⟩
  have last : ∀ s x : Bytes, splitMax s c!"?" 1 = [x] ↔ s = x := by intro s x; simp [splitMax]
  rw [step d 3]
  simp only [step _ 2, step _ 1, step _ 0, last]
  constructor
  · rintro ⟨r1, h1, r2, h2, r3, h3, r4, h4, rfl⟩; exact ⟨r1, r2, r3, h1, h2, h3, h4⟩
  · rintro ⟨r1, r2, r3, h1, h2, h3, h4⟩; exact ⟨r1, h1, r2, h2, r3, h3, _, h4, rfl⟩

section
variable [HtmlEntities] {dec : Codec} {d : Bytes}

theorem sp_reads {m : SP} : SP.unmarshal dec d = .ok m ↔ ReadsSP dec d m := by
  unfold SP.unmarshal ReadsSP
  obtain ⟨h, u⟩ := m
  simp only [Res.bind_eq_ok, name_reads, Res.pure_eq, Res.ok.injEq, SP.mk.injEq]
  constructor
  · rintro ⟨⟨x, y⟩, h1, z, h2, rfl, rfl⟩
    obtain ⟨t, h3, h4, h5⟩ := shortSearch_iff.mp h1
    exact ⟨t, y, h3, h4, h5, h2⟩
  · rintro ⟨t, y, h3, h4, h5, h2⟩
    exact ⟨(h, y), shortSearch_iff.mpr ⟨t, h3, h4, h5⟩, _, h2, rfl, rfl⟩

theorem target_iff {m : Search} {t : Nat} {f p : Bytes} {x : Option Hash} : Search.target dec m t f = .ok (p, x) ↔
    (t = 9 ∧ p = m.pattern ∧ ∃ b h y, f = b!"TTH:" ++ b ∧ Without b!"$" b h ∧ x = some y ∧ Base32.Names h y.bytes) ∨
      (t ≠ 9 ∧ x = m.tth ∧ ∃ s, ReadsText dec f s ∧ p = s.map (fun c => if c = c!"$" then c!" " else c)) := by
  unfold Search.target
  by_cases ht : t = 9
  · simp only [ht, if_true, true_and, ne_eq, not_true_eq_false, false_and, or_false]
    rcases view_prefix f b!"TTH:" with ⟨k1, k2, k3⟩ | ⟨b, rfl, k1, k2, k3, k4⟩
    · simp only [k1, Bool.false_eq_true, if_false, reduceCtorEq, false_iff]
      rintro ⟨-, b, h, y, e, -⟩
      exact k3 _ e
    · have k2 : sliceFrom (b!"TTH:" ++ b) 4 = .ok b := k2
      simp only [k1, if_true, k2, Res.ok_bind, Res.bind_eq_ok, Identifiers.hash_buffer_exact, Res.ok.injEq, Prod.mk.injEq, without_byte]
      constructor
      · rintro ⟨y, h1, rfl, rfl⟩; exact ⟨rfl, b, _, y, rfl, rfl, rfl, h1⟩
      · rintro ⟨rfl, b', _, y, h1, rfl, rfl, h2⟩
        cases List.append_cancel_left h1
        exact ⟨y, h2, rfl, rfl⟩
  · simp only [ht, if_false, Res.bind_eq_ok, str_reads, Res.ok.injEq, Prod.mk.injEq, false_and, false_or, ne_eq, not_false_eq_true, true_and, replaceByte]
    constructor
    · rintro ⟨s, h1, rfl, rfl⟩; exact ⟨rfl, s, h1, rfl⟩
    · rintro ⟨rfl, s, h1, rfl⟩; exact ⟨s, h1, rfl, rfl⟩

theorem searchString_iff {old m : Search} : Search.unmarshalString dec old d = .ok m ↔
    m.address = old.address ∧ m.user = old.user ∧ ∃ r f0 f1 f2 f3 f4 r1 r2 r3, First b!"?" d f0 r1 ∧ First b!"?" r1 f1 r2 ∧
      First b!"?" r2 f2 r3 ∧ First b!"?" r3 f3 f4 ∧ Flag f0 r ∧ Flag f1 m.isMaxSize ∧
      ((f2 = [] ∧ m.size = old.size ∧ m.sizeRestricted = r) ∨
        (∃ t n, f2 = b!"-" ++ t ∧ ReadsNat t n ∧ m.size = 0 ∧ m.sizeRestricted = false) ∨
        (f2 ≠ [] ∧ ¬ Begins b!"-" f2 ∧ ReadsNat f2 m.size ∧ m.sizeRestricted = r)) ∧
      ReadsNat f3 m.dataType ∧
      ((m.dataType = 9 ∧ m.pattern = old.pattern ∧
          ∃ b h x, f4 = b!"TTH:" ++ b ∧ Without b!"$" b h ∧ m.tth = some x ∧ Base32.Names h x.bytes) ∨
        (m.dataType ≠ 9 ∧ m.tth = old.tth ∧ ∃ s, ReadsText dec f4 s ∧ m.pattern = s.map (fun c => if c = c!"$" then c!" " else c))) := by
  unfold Search.unmarshalString
  constructor
  · intro h
    split at h
    · rename_i f0 f1 f2 f3 f4 hs
      obtain ⟨r1, r2, r3, s1, s2, s3, s4⟩ := splitMax5.mp hs
      simp only [Res.bind_eq_ok, flag_iff, nat_reads, Res.pure_eq, Res.ok.injEq] at h
      obtain ⟨r, h1, x, h2, ⟨z, n⟩, h3, t, h4, ⟨p, y⟩, h5, rfl⟩ := h
      rw [target_iff] at h5
      rw [sizeField_iff] at h3
      refine ⟨rfl, rfl, r, f0, f1, f2, f3, f4, r1, r2, r3, s1, s2, s3, s4, h1, h2, ?_, h4, h5⟩
      rcases h3 with ⟨h6, h7, rfl⟩ | ⟨t', k, h6, h7, h8, rfl⟩ | ⟨h6, h7, h8, rfl⟩
      · exact .inl ⟨h6, h7, by simp⟩
      · exact .inr (.inl ⟨t', k, h6, h7, h8, by simp⟩)
      · exact .inr (.inr ⟨h6, h7, h8, by simp⟩)
    · cases h
  · rintro ⟨e1, e2, r, f0, f1, f2, f3, f4, r1, r2, r3, s1, s2, s3, s4, h1, h2, h3, h4, h5⟩
    rw [splitMax5.mpr ⟨r1, r2, r3, s1, s2, s3, s4⟩]
    simp only [Res.bind_eq_ok, flag_iff, nat_reads, Res.pure_eq, Res.ok.injEq]
    obtain ⟨ad, us, sr, im, sz, dt, pt, th⟩ := m
    simp only at e1 e2 h2 h3 h4 h5 ⊢
    subst e1 e2
    rcases h3 with ⟨h6, h7, h8⟩ | ⟨t', k, h6, h7, h8, h9⟩ | ⟨h6, h7, h8, h9⟩
    · refine ⟨r, h1, _, h2, (false, sz), sizeField_iff.mpr (.inl ⟨h6, h7, rfl⟩), _, h4, (pt, th), target_iff.mpr h5, by simp [h8]⟩
    · refine ⟨r, h1, _, h2, (true, sz), sizeField_iff.mpr (.inr (.inl ⟨t', k, h6, h7, h8, rfl⟩)), _, h4, (pt, th), target_iff.mpr h5, by simp [h9]⟩
    · refine ⟨r, h1, _, h2, (false, sz), sizeField_iff.mpr (.inr (.inr ⟨h6, h7, h8, rfl⟩)), _, h4, (pt, th), target_iff.mpr h5, by simp [h9]⟩

theorem search_reads {old m : Search} : old.unmarshal dec d = .ok m ↔ ReadsSearch dec old d m := by
  unfold Search.unmarshal ReadsSearch
  rcases view_byte d c!" " with ⟨h1, -, h2⟩ | ⟨w, q, h1, h2, h3, -, hf, h4⟩
  · simp [h1, h2]
  simp only [h1, h2, h3, Res.ok_bind]
  rcases view_prefix w b!"Hub:" with ⟨k1, k2, k3⟩ | ⟨n, hw, k1, k2, k3, k4⟩
  · rw [k1]
    simp only [Bool.false_eq_true, if_false, searchString_iff]
    constructor
    · rintro ⟨e1, e2, r, f0, f1, f2, f3, f4, r1, r2, r3, h⟩
      exact ⟨w, q, r, f0, f1, f2, f3, f4, r1, r2, r3, hf, .inr ⟨k2, e1, e2⟩, h⟩
    · rintro ⟨w', q', r, f0, f1, f2, f3, f4, r1, r2, r3, s1, s2, h⟩
      obtain ⟨rfl, rfl⟩ := (h4 _ _).mp s1
      rcases s2 with ⟨n, e, -⟩ | ⟨-, e1, e2⟩
      · exact absurd e (k3 _)
      · exact ⟨e1, e2, r, f0, f1, f2, f3, f4, r1, r2, r3, h⟩
  · have k2 : sliceFrom w 4 = .ok n := k2
    simp only [k1, if_true, k2, Res.ok_bind, Res.bind_eq_ok, name_reads, searchString_iff]
    constructor
    · rintro ⟨u, hu, e1, e2, r, f0, f1, f2, f3, f4, r1, r2, r3, h⟩
      exact ⟨w, q, r, f0, f1, f2, f3, f4, r1, r2, r3, hf, .inl ⟨n, hw, e2 ▸ hu, e1⟩, h⟩
    · rintro ⟨w', q', r, f0, f1, f2, f3, f4, r1, r2, r3, s1, s2, h⟩
      obtain ⟨rfl, rfl⟩ := (h4 _ _).mp s1
      rcases s2 with ⟨n', e, hn, e1⟩ | ⟨e, -⟩
      · rw [(k4 _).mp e] at hn
        exact ⟨_, hn, e1, rfl, r, f0, f1, f2, f3, f4, r1, r2, r3, h⟩
      · exact absurd k3 e

end

/-! ## Search results -/

theorem slotChar_iff {b : Byte} : SlotChar b ↔ slotByte b = true := by
  rw [slotByte_iff, SlotChar]; exact Or.comm

theorem dirSplit_iff {p path slots : Bytes} : SR.dirSplit p = some (path, slots) ↔ DirSlots p path slots := by
  unfold SR.dirSplit DirSlots
  simp only [slotChar_iff]
  constructor
  · intro h
    split at h
    · rename_i hc
      obtain ⟨h1, h2⟩ := hc
      simp only [Option.some.injEq, Prod.mk.injEq] at h
      obtain ⟨rfl, rfl⟩ := h
      have hp : p = (p.reverse.dropWhile slotByte).reverse ++ (p.reverse.takeWhile slotByte).reverse := by
        rw [← List.reverse_append, List.takeWhile_append_dropWhile, List.reverse_reverse]
      cases hd : p.reverse.dropWhile slotByte with
      | nil => rw [hd] at hp; rw [← List.nil_append (p.reverse.takeWhile slotByte).reverse, ← List.reverse_nil, ← hp] at h2; omega
      | cons x u =>
        rw [hd] at hp
        have hx : ¬ slotByte x = true := by
          have := List.head?_dropWhile_not slotByte p.reverse
          rw [hd] at this
          simpa using this
        have hl : p.length = u.length + 1 + (p.reverse.takeWhile slotByte).reverse.length := by
          conv => lhs; rw [hp]
          simp; omega
        have hpath : p.take (p.length - (p.reverse.takeWhile slotByte).reverse.length - 1) = u.reverse := by
          rw [show p.length - (p.reverse.takeWhile slotByte).reverse.length - 1 = u.reverse.length by rw [hl]; simp]
          conv => lhs; rw [hp]
          simp
        refine ⟨x, ?_, hx, ?_, h1⟩
        · rw [hpath]; conv => lhs; rw [hp]
          simp
        · intro b hb
          exact List.all_eq_true.mp (List.all_takeWhile (p := slotByte) (l := p.reverse)) b (by simpa using hb)
    · cases h
  · rintro ⟨x, rfl, hx, hs, hm⟩
    have hr : ((path ++ [x] ++ slots).reverse.takeWhile slotByte).reverse = slots := by
      have e : (path ++ [x] ++ slots).reverse = slots.reverse ++ x :: path.reverse := by simp
      rw [e, takeWhile_append_stop (by simpa using hs) (by simpa using hx), List.reverse_reverse]
    rw [hr, if_pos ⟨hm, by simp; omega⟩]
    have : (path ++ [x] ++ slots).length - slots.length - 1 = path.length := by simp; omega
    rw [this]; simp

theorem dirSplit_none_iff {p : Bytes} : SR.dirSplit p = none ↔ ∀ x y, ¬ DirSlots p x y := by
  cases h : SR.dirSplit p with
  | none =>
    simp only [true_iff]
    intro x y hd
    rw [← dirSplit_iff, h] at hd; cases hd
  | some q =>
    simp only [reduceCtorEq, false_iff]
    intro hn
    exact hn q.1 q.2 (dirSplit_iff.mp h)

theorem fileSplit_iff {d slots rest : Bytes} {n : Nat} : SR.fileSplit d = .ok (n, slots, rest) ↔
    ∃ ss k, First b!"\x05" d ss rest ∧ First b!" " ss k slots ∧ ReadsNat k n := by
  unfold SR.fileSplit
  rcases view_byte d 5 with ⟨h1, -, h2⟩ | ⟨ss, r, h1, h2, h3, -, hf, h4⟩
  · simp [h1, h2]
  simp only [h1, h2, h3, Res.ok_bind]
  rcases view_byte ss c!" " with ⟨k1, -, k2⟩ | ⟨k, sl, k1, k2, k3, -, kf, k4⟩
  · simp only [k1, reduceCtorEq, false_iff]
    rintro ⟨ss', k, f1, f2, -⟩
    obtain ⟨rfl, rfl⟩ := (h4 _ _).mp f1
    exact k2 _ _ f2
  simp only [k1, k2, k3, Res.ok_bind, Res.bind_eq_ok, nat_reads, Res.ok.injEq, Prod.mk.injEq]
  constructor
  · rintro ⟨x, hx, rfl, rfl, rfl⟩; exact ⟨ss, k, hf, kf, hx⟩
  · rintro ⟨ss', k', f1, f2, hx⟩
    obtain ⟨rfl, rfl⟩ := (h4 _ _).mp f1
    obtain ⟨rfl, rfl⟩ := (k4 _ _).mp f2
    exact ⟨_, hx, rfl, rfl, rfl⟩

theorem parseSlots_iff {d : Bytes} {f t : Int} : SR.parseSlots d = .ok (f, t) ↔ ∃ a b, First b!"/" d a b ∧ ReadsInt a f ∧ ReadsInt b t := by
  unfold SR.parseSlots
  rcases view_byte d c!"/" with ⟨h1, -, h2⟩ | ⟨a, b, h1, h2, h3, -, hf, h4⟩
  · simp [h1, h2]
  simp only [h1, h2, h3, Res.ok_bind, Res.bind_eq_ok, int_reads, Res.ok.injEq, Prod.mk.injEq]
  constructor
  · rintro ⟨x, hx, y, hy, rfl, rfl⟩; exact ⟨a, b, hf, hx, hy⟩
  · rintro ⟨a', b', f1, hx, hy⟩
    obtain ⟨rfl, rfl⟩ := (h4 _ _).mp f1
    exact ⟨_, hx, _, hy, rfl, rfl⟩

section
variable [HtmlEntities] {dec : Codec} {d : Bytes}

theorem parseSource_iff {m : SR} {hub rest : Bytes} {tth : Option Hash} : SR.parseSource dec m d = .ok (hub, tth, rest) ↔
    (∃ h x, h.length = 39 ∧ d = b!"TTH:" ++ h ++ b!" (" ++ rest ∧ tth = some x ∧ Base32.Names h x.bytes ∧ hub = m.hubName) ∨
      (¬ Begins b!"TTH:" d ∧ tth = m.tth ∧ ∃ h, First b!" (" d h rest ∧ ReadsText dec h hub) := by
  unfold SR.parseSource
  rcases view_prefix d b!"TTH:" with ⟨k1, k2, k3⟩ | ⟨n, hw, k1, k2, k3, k4⟩
  · simp only [k1, Bool.false_eq_true, if_false, k2, not_false_eq_true, true_and]
    have hno : ¬ ∃ h x, List.length h = 39 ∧ d = b!"TTH:" ++ h ++ b!" (" ++ rest ∧ tth = some x ∧ Base32.Names h x.bytes ∧ hub = m.hubName := by
      rintro ⟨h, x, -, e, -⟩
      exact k3 (h ++ b!" (" ++ rest) (by rw [e]; simp)
    simp only [hno, false_or]
    rcases view_index d b!" (" with ⟨h1, -, h2⟩ | ⟨a, b, h1, h2, h3, -, hf, h4⟩
    · simp [h1, h2]
    have h3 : sliceFrom d (a.length + 2) = .ok b := h3
    simp only [h1, h2, h3, Res.ok_bind, Res.bind_eq_ok, str_reads, Res.ok.injEq, Prod.mk.injEq]
    constructor
    · rintro ⟨s, h5, rfl, rfl, rfl⟩; exact ⟨rfl, a, hf, h5⟩
    · rintro ⟨rfl, h, f1, h5⟩
      obtain ⟨rfl, rfl⟩ := (h4 _ _).mp f1
      exact ⟨_, h5, rfl, rfl, rfl⟩
  · have k2 : sliceFrom d 4 = .ok n := k2
    simp only [k1, if_true, k2, Res.ok_bind, k3, not_true_eq_false, false_and, or_false]
    constructor
    · intro hs
      split at hs
      · cases hs
      · rename_i hl
        rw [at'_ok (by omega), at'_ok (by omega)] at hs
        simp only [Res.ok_bind] at hs
        split at hs
        · cases hs
        · rename_i hc
          simp only [not_or, ne_eq, Decidable.not_not] at hc
          rw [sliceFrom_ok (by omega)] at hs
          simp only [Res.ok_bind, Res.bind_eq_ok, Res.ok.injEq, Prod.mk.injEq, Identifiers.hash_buffer_exact] at hs
          obtain ⟨x, hx, rfl, rfl, rfl⟩ := hs
          refine ⟨n.take 39, x, by simp; omega, ?_, rfl, hx, rfl⟩
          rw [hw, List.append_assoc, List.append_assoc]
          congr 1
          rw [show b!" (" = [n[39]] ++ [n[40]] by rw [hc.1, hc.2]; rfl, List.append_assoc, List.singleton_append, List.singleton_append,
            List.getElem_cons_drop, List.getElem_cons_drop, List.take_append_drop]
    · rintro ⟨h, x, hl, e, rfl, hx, rfl⟩
      have e' : n = h ++ (b!" (" ++ rest) := by
        rw [hw] at e; simpa using e
      have e1 : n.take 39 = h := by rw [e', ← hl, List.take_left]
      have e3 : n.drop 41 = rest := by
        rw [e', ← List.append_assoc, show 41 = (h ++ b!" (").length by simp [hl], List.drop_left]
      have hn : n.length = 41 + rest.length := by rw [e']; simp; omega
      rw [if_neg (by omega), at'_ok (by omega), at'_ok (by omega)]
      have e2 : n[39]'(by omega) = c!" " ∧ n[40]'(by omega) = c!"(" := by
        subst e'
        constructor
        · simp [hl]
        · simp [hl]
      rw [sliceFrom_ok (by omega), e1, e3, e2.1, e2.2]
      simp only [ne_eq, not_true_eq_false, or_self, if_false, Res.ok_bind, Res.bind_eq_ok, Identifiers.hash_buffer_exact]
      exact ⟨x, hx, rfl⟩

theorem parseTarget_iff {m : SR} {addr dst : Bytes} : SR.parseTarget dec m d = .ok (addr, dst) ↔
    ∃ r, First b!")" d addr r ∧ ((r = [] ∧ dst = m.dst) ∨ ∃ n, r = b!"\x05" ++ n ∧ n ≠ [] ∧ ReadsName dec n dst) := by
  unfold SR.parseTarget
  rcases view_byte d c!")" with ⟨h1, -, h2⟩ | ⟨a, b, h1, h2, h3, -, hf, h4⟩
  · simp [h1, h2]
  simp only [h1, h2, h3, Res.ok_bind, h4]
  cases b with
  | nil =>
    simp only [Res.ok.injEq, Prod.mk.injEq]
    constructor
    · rintro ⟨rfl, rfl⟩; exact ⟨[], ⟨rfl, rfl⟩, .inl ⟨rfl, rfl⟩⟩
    · rintro ⟨_, ⟨rfl, rfl⟩, ⟨-, rfl⟩ | ⟨n, h, -⟩⟩
      · exact ⟨rfl, rfl⟩
      · simp at h
  | cons c t =>
    constructor
    · intro h
      simp only at h
      split at h
      · cases h
      · rename_i hc
        simp only [not_or, ne_eq, Decidable.not_not] at hc
        simp only [Res.bind_eq_ok, name_reads, Res.ok.injEq, Prod.mk.injEq] at h
        obtain ⟨n, hn, rfl, rfl⟩ := h
        exact ⟨_, ⟨rfl, rfl⟩, .inr ⟨t, by rw [hc.1]; rfl, hc.2, hn⟩⟩
    · rintro ⟨_, ⟨rfl, rfl⟩, ⟨h, -⟩ | ⟨n, h, hne, hn⟩⟩
      · cases h
      · simp only [List.cons_append, List.nil_append, List.cons.injEq] at h
        obtain ⟨rfl, rfl⟩ := h
        simp only [ne_eq, not_true_eq_false, hne, or_self, if_false, Res.bind_eq_ok, name_reads]
        exact ⟨_, hn, rfl⟩

theorem srTail_iff {old m : SR} {path slots : Bytes} : SR.tail dec old path slots d = .ok m ↔
    m.src = old.src ∧ m.isDir = old.isDir ∧ m.size = old.size ∧ (∃ s, ReadsText dec path s) ∧ Parts c!"\\" path m.path ∧
    ∃ f t r4 r5, First b!"/" slots f t ∧ ReadsInt f m.freeSlots ∧ ReadsInt t m.totalSlots ∧
    ((∃ h x, h.length = 39 ∧ d = b!"TTH:" ++ h ++ b!" (" ++ r4 ∧ m.tth = some x ∧ Base32.Names h x.bytes ∧ m.hubName = old.hubName) ∨
      (¬ Begins b!"TTH:" d ∧ m.tth = old.tth ∧ ∃ h, First b!" (" d h r4 ∧ ReadsText dec h m.hubName)) ∧
    First b!")" r4 m.hubAddress r5 ∧
    ((r5 = [] ∧ m.dst = old.dst) ∨ ∃ n, r5 = b!"\x05" ++ n ∧ n ≠ [] ∧ ReadsName dec n m.dst) := by
  unfold SR.tail
  obtain ⟨x1, x2, x3, x4, x5, x6, x7, x8, x9, x10⟩ := m
  simp only [Res.bind_eq_ok, str_reads, Res.pure_eq, Res.ok.injEq, SR.mk.injEq, parts_split]
  constructor
  · rintro ⟨s, hs, ⟨f, t⟩, h1, ⟨hub, th, r⟩, h2, ⟨ad, ds⟩, h3, rfl, rfl, rfl, rfl, rfl, rfl, rfl, rfl, rfl, rfl⟩
    obtain ⟨a, b, g1, g2, g3⟩ := parseSlots_iff.mp h1
    have g4 := parseSource_iff.mp h2
    obtain ⟨r5, g5, g6⟩ := parseTarget_iff.mp h3
    exact ⟨rfl, rfl, rfl, ⟨s, hs⟩, rfl, a, b, r, r5, g1, g2, g3, g4, g5, g6⟩
  · rintro ⟨rfl, rfl, rfl, ⟨s, hs⟩, rfl, a, b, r4, r5, g1, g2, g3, g4, g5, g6⟩
    exact ⟨s, hs, (_, _), parseSlots_iff.mpr ⟨a, b, g1, g2, g3⟩, (_, _, _), parseSource_iff.mpr g4, (_, _),
      parseTarget_iff.mpr ⟨r5, g5, g6⟩, rfl, rfl, rfl, rfl, rfl, rfl, rfl, rfl, rfl, rfl⟩

theorem sr_reads {old m : SR} : old.unmarshal dec d = .ok m ↔ ReadsSR dec old d m := by
  unfold SR.unmarshal ReadsSR
  rcases view_byte d c!" " with ⟨h1, -, h2⟩ | ⟨a, r1, h1, h2, h3, -, hf, h4⟩
  · simp [h1, h2]
  simp only [h1, h2, h3, Res.ok_bind]
  rcases view_byte r1 5 with ⟨k1, -, k2⟩ | ⟨p, r2, k1, k2, k3, -, kf, k4⟩
  · simp only [k1, Res.bind_eq_ok, reduceCtorEq, and_false, exists_false, false_iff]
    rintro ⟨a', r1', p, r2, path, slots, r3, f, t, r4, addr, r5, s1, s2, s3, -⟩
    obtain ⟨rfl, rfl⟩ := (h4 _ _).mp s1
    exact k2 _ _ s3
  simp only [k1, k2, k3, Res.ok_bind, Res.bind_eq_ok, name_reads]
  cases hd : SR.dirSplit p with
  | some q =>
    obtain ⟨path, slots⟩ := q
    have hd' := dirSplit_iff.mp hd
    simp only [srTail_iff]
    constructor
    · rintro ⟨n, hn, e1, e2, e3, h5, h6, f, t, r4, r5, g1, g2, g3, g4, g5, g6⟩
      exact ⟨a, r1, p, r2, path, slots, r2, f, t, r4, _, r5, hf, e1 ▸ hn, kf, .inl ⟨hd', rfl, e2, e3⟩, h5, h6, g1, g2, g3, g4, g5, rfl, g6⟩
    · rintro ⟨a', r1', p', r2', path', slots', r3, f, t, r4, addr, r5, s1, s2, s3, s4, h5, h6, g1, g2, g3, g4, g5, e, g6⟩
      obtain ⟨rfl, rfl⟩ := (h4 _ _).mp s1
      obtain ⟨rfl, rfl⟩ := (k4 _ _).mp s3
      rcases s4 with ⟨s4, rfl, e2, e3⟩ | ⟨s4, -⟩
      · rw [← dirSplit_iff, hd] at s4
        cases s4
        exact ⟨_, s2, rfl, e2, e3, h5, h6, f, t, r4, r5, g1, g2, g3, g4, e ▸ g5, g6⟩
      · exact absurd hd' (s4 _ _)
  | none =>
    have hd' := dirSplit_none_iff.mp hd
    simp only [Res.bind_eq_ok, srTail_iff]
    constructor
    · rintro ⟨n, hn, ⟨k, slots, r3⟩, hs, e1, e2, e3, h5, h6, f, t, r4, r5, g1, g2, g3, g4, g5, g6⟩
      obtain ⟨ss, kk, q1, q2, q3⟩ := fileSplit_iff.mp hs
      exact ⟨a, r1, p, r2, p, slots, r3, f, t, r4, _, r5, hf, e1 ▸ hn, kf, .inr ⟨hd', rfl, e2, ss, kk, q1, q2, e3 ▸ q3⟩, h5, h6, g1, g2, g3, g4,
        g5, rfl, g6⟩
    · rintro ⟨a', r1', p', r2', path', slots', r3, f, t, r4, addr, r5, s1, s2, s3, s4, h5, h6, g1, g2, g3, g4, g5, e, g6⟩
      obtain ⟨rfl, rfl⟩ := (h4 _ _).mp s1
      obtain ⟨rfl, rfl⟩ := (k4 _ _).mp s3
      rcases s4 with ⟨s4, -⟩ | ⟨-, rfl, e2, ss, kk, q1, q2, q3⟩
      · exact absurd s4 (hd' _ _)
      · exact ⟨_, s2, (_, _, _), fileSplit_iff.mpr ⟨ss, kk, q1, q2, q3⟩, rfl, e2, rfl, h5, h6, f, t, r4, r5, g1, g2, g3, g4, e ▸ g5, g6⟩

end

/-! ## Chat messages -/

theorem white_iff (r : Nat) : isSpaceRune r = true ↔ r ∈ white := isSpaceRune_iff r

theorem white_scalar {r : Nat} (h : r ∈ white) : IsScalar r := by
  have : ∀ r ∈ white, IsScalar r := by unfold IsScalar; decide
  exact this r h

theorem white_view (s : Bytes) : (¬ White s ∧ (decodeRune s = none ∨ ∃ r n, decodeRune s = some (r, n) ∧ isSpaceRune r = false)) ∨
    ∃ r t, r ∈ white ∧ s = utf8 r ++ t ∧ decodeRune s = some (r, (utf8 r).length) ∧ isSpaceRune r = true := by
  by_cases hw : White s
  · obtain ⟨r, hr, t, rfl⟩ := hw
    exact .inr ⟨r, t, hr, rfl, decodeRune_utf8 (white_scalar hr) t, (white_iff r).mpr hr⟩
  · refine .inl ⟨hw, ?_⟩
    cases hd : decodeRune s with
    | none => exact .inl rfl
    | some q =>
      obtain ⟨r, n⟩ := q
      refine .inr ⟨r, n, rfl, ?_⟩
      cases hs : isSpaceRune r with
      | false => rfl
      | true => exact absurd ⟨r, (white_iff r).mp hs, _, (decodeRune_some hd).2.1⟩ hw

theorem scan_other {c : Byte} {s : Bytes} (h1 : c ≠ c!"\r") (h2 : c ≠ c!"\n") (h3 : c ≠ c!">") (pos base : Nat) :
    chatScan (c :: s) pos base = chatScan s (pos + 1) base := by
  rw [chatScan, if_neg (by simp [h1, h2]), if_neg h3]

theorem scan_gt {s : Bytes} (h1 : s ≠ []) (h2 : ¬ White s) (pos base : Nat) :
    chatScan (c!">" :: s) pos base = chatScan s (pos + 1) (pos + 1) := by
  rw [chatScan, if_neg (by decide), if_pos rfl, if_neg h1]
  rcases white_view s with ⟨-, h | ⟨r, n, h, h'⟩⟩ | ⟨r, t, hr, hs, -⟩
  · simp [h]
  · simp [h, h']
  · exact absurd ⟨r, hr, t, hs⟩ h2

theorem scan_white {r : Nat} {t : Bytes} (hr : r ∈ white) (pos base : Nat) :
    chatScan (c!">" :: (utf8 r ++ t)) pos base = .ok (pos, (utf8 r).length + 1) := by
  rw [chatScan, if_neg (by decide), if_pos rfl, if_neg (by simp [utf8_ne_nil]), decodeRune_utf8 (white_scalar hr)]
  simp [(white_iff r).mpr hr]

theorem scan_last (pos base : Nat) : chatScan [c!">"] pos base = .ok (pos - base, 1) := by
  simp [chatScan]

theorem scan_line {x : Bytes} (h : ∀ b ∈ x.head?, b = c!"\r" ∨ b = c!"\n") (pos base : Nat) :
    chatScan x pos base = if base = 0 then .err .protocolViolation else .ok (base - 1, 1) := by
  cases x with
  | nil => rw [chatScan]
  | cons c x => rw [chatScan, if_pos (h c (by simp))]

/-- Where the scan thinks the last part starts after `p`. -/
def baseAfter : Nat → Nat → Bytes → Nat
  | _, base, [] => base
  | pos, base, c :: p => baseAfter (pos + 1) (if c = c!">" then pos + 1 else base) p

theorem baseAfter_none {p : Bytes} (h : c!">" ∉ p) (pos base : Nat) : baseAfter pos base p = base := by
  induction p generalizing pos with
  | nil => rfl
  | cons c p ih =>
    simp only [List.mem_cons, not_or] at h
    rw [baseAfter, if_neg (Ne.symm h.1), ih h.2]

theorem baseAfter_some {n l : Bytes} (h : c!">" ∉ l) (pos base : Nat) : baseAfter pos base (n ++ b!">" ++ l) = pos + n.length + 1 := by
  induction n generalizing pos base with
  | nil => simp [baseAfter, baseAfter_none h]
  | cons c n ih =>
    simp only [List.cons_append, baseAfter]
    rw [ih]; simp; omega

theorem scan_skip {p s : Bytes} (h1 : c!"\r" ∉ p) (h2 : c!"\n" ∉ p) (h3 : ∀ u v, p = u ++ b!">" ++ v → ¬ White (v ++ s))
    (h4 : s ≠ []  ∨ ∀ b ∈ p.getLast?, b ≠ c!">") (pos base : Nat) :
    chatScan (p ++ s) pos base = chatScan s (pos + p.length) (baseAfter pos base p) := by
  induction p generalizing pos base with
  | nil => simp [baseAfter]
  | cons c p ih =>
    simp only [List.mem_cons, not_or] at h1 h2
    have ih := ih h1.2 h2.2 (fun u v e => h3 (c :: u) v (by rw [e]; rfl)) (by
      rcases h4 with h4 | h4
      · exact .inl h4
      · refine .inr (fun b hb => h4 b ?_)
        cases p with
        | nil => simp at hb
        | cons x p => simpa [List.getLast?_cons_cons] using hb)
    by_cases hc : c = c!">"
    · subst hc
      rw [List.cons_append, scan_gt ?_ (h3 [] p rfl), ih, baseAfter, if_pos rfl]
      · congr 1; simp; omega
      · rcases h4 with h4 | h4
        · simp [h4]
        · cases p with
          | nil => exact absurd rfl (h4 _ rfl)
          | cons => simp
    · rw [List.cons_append, scan_other (Ne.symm h1.1) (Ne.symm h2.1) hc, ih, baseAfter, if_neg hc]
      congr 1; simp; omega

theorem scan_complete {d n t : Bytes} (hd : d ≠ []) (h : ChatSplit d n t) :
    ∃ i off, chatScan d 0 0 = .ok (i, off) ∧ d.take i = n ∧ d.drop (i + off) = t := by
  cases h with
  | empty => exact absurd rfl hd
  | @space n t r hr h1 h2 h3 =>
    have e : n ++ b!">" ++ utf8 r ++ t = n ++ c!">" :: (utf8 r ++ t) := by simp
    refine ⟨n.length, (utf8 r).length + 1, ?_, by simp, ?_⟩
    · rw [e, scan_skip h1 h2 (fun u v he => by simpa using h3 u v he) (.inl (by simp)), scan_white hr, Nat.zero_add]
    · rw [show n.length + ((utf8 r).length + 1) = (n ++ b!">" ++ utf8 r).length by simp +arith, List.drop_left]
  | @line n l x h1 h2 h3 h4 h5 h6 =>
    simp only [List.mem_append, not_or] at h1 h2
    refine ⟨n.length, 1, ?_, by simp, ?_⟩
    · rw [scan_skip (by simp [h1]) (by simp [h2]) (fun u v he => h6 u v he), scan_line h4, baseAfter_some h3]
      · simp
      · cases l with
        | nil => exact .inl (by simpa using h5)
        | cons a l =>
          refine .inr (fun b hb => ?_)
          rw [List.getLast?_append] at hb
          intro hbe
          apply h3
          have : b ∈ (a :: l).getLast? := by
            cases hl : (a :: l).getLast? with
            | none => simp at hl
            | some y => rw [hl] at hb; simpa using hb
          exact hbe ▸ List.mem_of_getLast? this
    · rw [List.append_assoc, show n.length + 1 = (n ++ b!">").length by simp, List.drop_left]
  | @final u v _ he h1 h2 h3 h4 h5 =>
    subst he
    refine ⟨v.length, 1, ?_, rfl, rfl⟩
    have h1' : c!"\r" ∉ u ++ v := fun h => h1 (List.mem_append_left _ h)
    have h2' : c!"\n" ∉ u ++ v := fun h => h2 (List.mem_append_left _ h)
    rw [scan_skip h1' h2' (fun a b he => h5 a b he) (.inl (by simp)), scan_last]
    congr 2
    rcases List.eq_nil_or_concat u with rfl | ⟨u', b, rfl⟩
    · simp [baseAfter_none h3]
    · have : b = c!">" := h4 b (by simp)
      subst this
      rw [List.concat_eq_append, baseAfter_some h3]
      simp; omega

theorem concat_cut {p u v : Bytes} {c x : Byte} (h : p ++ [c] = u ++ [x] ++ v) : (v = [] ∧ p = u ∧ c = x) ∨ ∃ w, v = w ++ [c] ∧ p = u ++ [x] ++ w := by
  rcases List.eq_nil_or_concat v with rfl | ⟨w, b, rfl⟩
  · rw [List.append_nil] at h
    have := List.append_inj' h rfl
    exact .inl ⟨rfl, this.1, by simpa using this.2⟩
  · rw [List.concat_eq_append, ← List.append_assoc] at h
    have := List.append_inj' h rfl
    refine .inr ⟨w, ?_, this.1⟩
    rw [List.concat_eq_append, this.2]

theorem scan_stop {d s p : Bytes} {base i off : Nat} (hd : d = p ++ s) (h1 : c!"\r" ∉ p) (h2 : c!"\n" ∉ p)
    (h3 : ∀ u v, p = u ++ b!">" ++ v → ¬ White (v ++ s)) (h4 : ∀ u, p = u ++ b!">" → s ≠ [])
    (hb : (base = 0 ∧ c!">" ∉ p) ∨ ∃ n l, p = n ++ b!">" ++ l ∧ c!">" ∉ l ∧ base = n.length + 1)
    (h : chatScan s p.length base = .ok (i, off)) (hh : ∀ b ∈ s.head?, b = c!"\r" ∨ b = c!"\n") :
    ChatSplit d (d.take i) (d.drop (i + off)) := by
  rw [scan_line hh] at h
  split at h
  · cases h
  rename_i hne
  rcases hb with ⟨rfl, -⟩ | ⟨n, l, rfl, hl, rfl⟩
  · exact absurd rfl hne
  simp only [Nat.add_sub_cancel, Res.ok.injEq, Prod.mk.injEq] at h
  obtain ⟨rfl, rfl⟩ := h
  have e1 : d.take n.length = n := by rw [hd]; simp
  have e2 : d.drop (n.length + 1) = l ++ s := by
    rw [hd, List.append_assoc, show n.length + 1 = (n ++ b!">").length by simp, List.drop_left]
  rw [e1, e2, hd]
  simp only [List.mem_append, not_or] at h1 h2
  refine .line (by simp [h1]) (by simp [h2]) hl hh ?_ h3
  intro he
  rw [List.append_eq_nil_iff] at he
  exact h4 n (by rw [he.1]; simp) he.2

theorem scan_sound {d s p : Bytes} {base i off : Nat} (hd : d = p ++ s) (h1 : c!"\r" ∉ p) (h2 : c!"\n" ∉ p)
    (h3 : ∀ u v, p = u ++ b!">" ++ v → ¬ White (v ++ s)) (h4 : ∀ u, p = u ++ b!">" → s ≠ [])
    (hb : (base = 0 ∧ c!">" ∉ p) ∨ ∃ n l, p = n ++ b!">" ++ l ∧ c!">" ∉ l ∧ base = n.length + 1)
    (h : chatScan s p.length base = .ok (i, off)) : ChatSplit d (d.take i) (d.drop (i + off)) := by
  induction s generalizing p base with
  | nil => exact scan_stop hd h1 h2 h3 h4 hb h (by simp)
  | cons c s ih =>
    by_cases hr : c = c!"\r" ∨ c = c!"\n"
    · exact scan_stop hd h1 h2 h3 h4 hb h (by simpa using hr)
    simp only [not_or] at hr
    have hp1 : c!"\r" ∉ p ++ [c] := by simp [h1, Ne.symm hr.1]
    have hp2 : c!"\n" ∉ p ++ [c] := by simp [h2, Ne.symm hr.2]
    have e : d = p ++ [c] ++ s := by rw [hd]; simp
    by_cases hc : c = c!">"
    · subst hc
      by_cases hs : s = []
      · subst hs
        rw [scan_last] at h
        simp only [Res.ok.injEq, Prod.mk.injEq] at h
        obtain ⟨rfl, rfl⟩ := h
        rcases hb with ⟨rfl, hb⟩ | ⟨n, l, rfl, hl, rfl⟩
        · exact .final (u := []) (v := p) (by simpa using hd) (hd ▸ hp1) (hd ▸ hp2) hb (by simp) (fun a b he => h3 a b he)
        · have e2 : (n ++ b!">" ++ l).length - (n.length + 1) = l.length := by simp; omega
          rw [e2]
          exact .final (u := n ++ b!">") hd (hd ▸ hp1) (hd ▸ hp2) hl (by simp) h3
      · by_cases hw : White s
        · obtain ⟨r, hr, t, rfl⟩ := hw
          rw [scan_white hr] at h
          simp only [Res.ok.injEq, Prod.mk.injEq] at h
          obtain ⟨rfl, rfl⟩ := h
          have e1 : d.take p.length = p := by rw [hd]; simp
          have e' : d = p ++ b!">" ++ utf8 r ++ t := by rw [hd]; simp
          have e2 : d.drop (p.length + ((utf8 r).length + 1)) = t := by
            rw [e', show p.length + ((utf8 r).length + 1) = (p ++ b!">" ++ utf8 r).length by simp +arith, List.drop_left]
          rw [e1, e2, e']
          exact .space hr h1 h2 (fun u v he => by simpa using h3 u v he)
        · rw [scan_gt hs hw] at h
          refine ih (p := p ++ [c!">"]) (base := p.length + 1) e hp1 hp2 ?_ (fun _ _ => hs) (.inr ⟨p, [], by simp, by simp, rfl⟩)
            (by simpa using h)
          intro u v he
          rcases concat_cut he with ⟨rfl, -, -⟩ | ⟨w, rfl, he'⟩
          · exact hw
          · simpa using h3 u w he'
    · rw [scan_other hr.1 hr.2 hc] at h
      refine ih (p := p ++ [c]) (base := base) e hp1 hp2 ?_ ?_ ?_ (by simpa using h)
      · intro u v he
        rcases concat_cut he with ⟨-, -, h⟩ | ⟨w, rfl, he'⟩
        · exact absurd h hc
        · simpa using h3 u w he'
      · intro u he
        have := List.append_inj' he rfl
        exact absurd (by simpa using this.2) hc
      · rcases hb with ⟨hb, hb'⟩ | ⟨n, l, rfl, hl, hb⟩
        · exact .inl ⟨hb, by simp [hb', Ne.symm hc]⟩
        · exact .inr ⟨n, l ++ [c], by simp, by simp [hl, Ne.symm hc], hb⟩

section
variable [HtmlEntities] {dec : Codec} {d : Bytes}

theorem chat_reads {old m : ChatMessage} : old.unmarshal dec d = .ok m ↔ ReadsChat dec old d m := by
  have plain : ∀ m : ChatMessage, (do
      let t ← Str.unmarshal dec d
      pure { old with text := t }) = Res.ok m ↔ m.name = old.name ∧ ReadsText dec d m.text := by
    intro m
    simp only [Res.bind_eq_ok, str_reads, Res.pure_eq, Res.ok.injEq]
    constructor
    · rintro ⟨t, ht, rfl⟩; exact ⟨rfl, ht⟩
    · rintro ⟨h1, h2⟩; exact ⟨_, h2, by rw [← h1]⟩
  cases d with
  | nil =>
    refine (plain m).trans ?_
    simp [ReadsChat, Begins]
  | cons c r =>
    unfold ReadsChat
    by_cases hc : c = c!"<"
    · subst hc
      have hb : Begins b!"<" (c!"<" :: r) := ⟨r, rfl⟩
      simp only [hb, not_true_eq_false, false_and, false_or]
      rw [ChatMessage.unmarshal, if_pos rfl]
      have key : ∀ i off, i + off ≤ r.length → ((do
          let name ← sliceTo r i
          let rest ← sliceFrom r (i + off)
          if name.length > maxName then (.err .protocolViolation : Res ChatMessage)
          else do
            let n ← Name.unmarshal dec name
            let t ← Str.unmarshal dec rest
            pure { name := n, text := t }) = .ok m ↔ ReadsName dec (r.take i) m.name ∧ ReadsText dec (r.drop (i + off)) m.text) := by
        intro i off hl
        rw [sliceTo_ok (by omega), sliceFrom_ok hl]
        simp only [Res.ok_bind]
        split
        · rename_i hn
          simp only [reduceCtorEq, false_iff]
          rintro ⟨⟨hn', -⟩, -⟩
          exact absurd hn' (by simpa [maxName] using hn)
        · simp only [Res.bind_eq_ok, name_reads, str_reads, Res.pure_eq, Res.ok.injEq]
          constructor
          · rintro ⟨n, hn, t, ht, rfl⟩; exact ⟨hn, ht⟩
          · rintro ⟨hn, ht⟩; exact ⟨_, hn, _, ht, rfl⟩
      split
      · rename_i hr
        refine (key 0 0 (Nat.zero_le _)).trans ?_
        subst hr
        constructor
        · rintro ⟨h1, h2⟩; exact ⟨[], [], [], rfl, .empty, h1, h2⟩
        · rintro ⟨r', n, t, he, hs, h1, h2⟩
          simp only [List.cons_append, List.nil_append, List.cons.injEq, true_and] at he
          subst he
          obtain ⟨rfl, rfl⟩ : n = [] ∧ t = [] := by
            generalize hq : ([] : Bytes) = q at hs
            cases hs with
            | empty => exact ⟨rfl, rfl⟩
            | space => simp at hq
            | line => simp at hq
            | final he => rw [he] at hq; simp at hq
          exact ⟨h1, h2⟩
      · rename_i hr
        rw [Res.bind_eq_ok]
        constructor
        · rintro ⟨⟨i, off⟩, h1, h2⟩
          have hl := chatScan_bound r 0 0 (Nat.le_refl _) h1
          obtain ⟨h3, h4⟩ := (key i off (by omega)).mp h2
          exact ⟨r, _, _, rfl, scan_sound (p := []) rfl (by simp) (by simp) (by simp) (by simp) (.inl ⟨rfl, by simp⟩) h1, h3, h4⟩
        · rintro ⟨r', n, t, he, hs, h1, h2⟩
          simp only [List.cons_append, List.nil_append, List.cons.injEq, true_and] at he
          subst he
          obtain ⟨i, off, e, rfl, rfl⟩ := scan_complete hr hs
          have hl := chatScan_bound r 0 0 (Nat.le_refl _) e
          exact ⟨(i, off), e, (key i off (by omega)).mpr ⟨h1, h2⟩⟩
    · have hb : ¬ Begins b!"<" (c :: r) := by
        rintro ⟨r', h⟩
        simp only [List.cons_append, List.nil_append, List.cons.injEq] at h
        exact hc h.1
      rw [ChatMessage.unmarshal, if_neg hc]
      refine (plain m).trans ?_
      simp only [hb, not_false_eq_true, true_and]
      constructor
      · exact .inl
      · rintro (h | ⟨r', n, t, h, -⟩)
        · exact h
        · exact absurd ⟨r', h⟩ hb

end

/-! ## User commands -/

theorem trimLeft_skip (k : Nat) (s : Bytes) : trimSpaceLeft k s = trimSpaceLeft 0 (s.drop k) := by
  induction s generalizing k with
  | nil => cases k <;> simp [trimSpaceLeft]
  | cons b s ih =>
    cases k with
    | zero => rfl
    | succ k => rw [trimSpaceLeft, ih, List.drop_succ_cons]

theorem trimLeft_white {r : Nat} (hr : r ∈ white) (s : Bytes) : trimSpaceLeft 0 (utf8 r ++ s) = trimSpaceLeft 0 s := by
  have hh : spaceHead (utf8 r ++ s) = some (utf8 r).length := by
    rw [spaceHead, decodeRune_utf8 (white_scalar hr)]
    simp [(white_iff r).mpr hr]
  cases hu : utf8 r with
  | nil => exact absurd hu (utf8_ne_nil r)
  | cons b u =>
    rw [hu] at hh
    rw [List.cons_append] at hh ⊢
    rw [trimSpaceLeft, hh]
    simp only
    rw [trimLeft_skip]
    simp

theorem trimLeft_stop {s : Bytes} (h : ¬ White s) : trimSpaceLeft 0 s = s := by
  cases s with
  | nil => rfl
  | cons b s =>
    have hh : spaceHead (b :: s) = none := by
      rw [spaceHead]
      rcases white_view (b :: s) with ⟨-, h | ⟨r, n, h, h'⟩⟩ | ⟨r, t, hr, hs, -⟩
      · rw [h]
      · rw [h]; simp [h']
      · exact absurd ⟨r, hr, t, hs⟩ h
    rw [trimSpaceLeft, hh]

theorem trimLeft_spec (s : Bytes) : ¬ White (trimSpaceLeft 0 s) ∧ ∃ a : List Nat, (∀ r ∈ a, r ∈ white) ∧ s = a.flatMap utf8 ++ trimSpaceLeft 0 s := by
  by_cases h : White s
  · obtain ⟨r, hr, t, rfl⟩ := h
    have : t.length < (utf8 r ++ t).length := by
      have := List.length_pos_iff.mpr (utf8_ne_nil r); simp; omega
    obtain ⟨h1, a, ha, e⟩ := trimLeft_spec t
    rw [trimLeft_white hr]
    refine ⟨h1, r :: a, by simpa using ⟨hr, ha⟩, ?_⟩
    rw [List.flatMap_cons, List.append_assoc, ← e]
  · rw [trimLeft_stop h]
    exact ⟨h, [], by simp, by simp⟩
termination_by s.length

theorem trimLeft_all {a : List Nat} (ha : ∀ r ∈ a, r ∈ white) (s : Bytes) : trimSpaceLeft 0 (a.flatMap utf8 ++ s) = trimSpaceLeft 0 s := by
  induction a with
  | nil => rfl
  | cons r a ih =>
    rw [List.flatMap_cons, List.append_assoc, trimLeft_white (ha r (by simp)), ih (fun x hx => ha x (by simp [hx]))]

/-- `v` ends with white space. -/
def EndsWhite (v : Bytes) : Prop := ∃ r ∈ white, ∃ u, v = u ++ utf8 r

theorem suffix_free : ∀ r ∈ white, ∀ r' ∈ white, (utf8 r').isSuffixOf (utf8 r) = true → r' = r := by decide +kernel

theorem spaceLast_white {r : Nat} (hr : r ∈ white) (s : Bytes) : spaceLast (s ++ utf8 r).reverse = some (utf8 r).length := by
  unfold spaceLast
  cases hf : spaceRunes.find? (fun r' => hasPrefix (s ++ utf8 r).reverse (utf8 r').reverse) with
  | none =>
    rw [List.find?_eq_none] at hf
    refine absurd ?_ (hf r hr)
    rw [hasPrefix_iff, List.reverse_prefix]
    exact ⟨s, rfl⟩
  | some r' =>
    have h1 : r' ∈ white := List.mem_of_find?_eq_some hf
    have h2 := List.find?_some hf
    rw [hasPrefix_iff, List.reverse_prefix] at h2
    have h3 : utf8 r <:+ s ++ utf8 r := ⟨s, rfl⟩
    have : r' = r := by
      rcases Nat.le_total (utf8 r).length (utf8 r').length with hl | hl
      · exact (suffix_free r' h1 r hr (List.isSuffixOf_iff_suffix.mpr (List.suffix_of_suffix_length_le h3 h2 hl))).symm
      · exact suffix_free r hr r' h1 (List.isSuffixOf_iff_suffix.mpr (List.suffix_of_suffix_length_le h2 h3 hl))
    simp [this]

/-- `bytes.TrimSpace` on the right. -/
def trimR (s : Bytes) : Bytes := (trimSpaceRight 0 s.reverse).reverse

theorem trimRight_skip (k : Nat) (s : Bytes) : trimSpaceRight k s = trimSpaceRight 0 (s.drop k) := by
  induction s generalizing k with
  | nil => cases k <;> simp [trimSpaceRight]
  | cons b s ih =>
    cases k with
    | zero => rfl
    | succ k => rw [trimSpaceRight, ih, List.drop_succ_cons]

theorem trimR_white {r : Nat} (hr : r ∈ white) (s : Bytes) : trimR (s ++ utf8 r) = trimR s := by
  unfold trimR
  have hh := spaceLast_white hr s
  have hl : (s ++ utf8 r).reverse.drop (utf8 r).length = s.reverse := by
    rw [List.reverse_append, show (utf8 r).length = (utf8 r).reverse.length by simp, List.drop_left]
  have hn := List.length_pos_iff.mpr (utf8_ne_nil r)
  cases hu : (s ++ utf8 r).reverse with
  | nil => simp [utf8_ne_nil] at hu
  | cons b u =>
    rw [hu] at hh hl
    rw [trimSpaceRight, hh]
    simp only
    rw [trimRight_skip, ← hl]
    congr 2
    obtain ⟨n, e⟩ : ∃ n, (utf8 r).length = n + 1 := ⟨(utf8 r).length - 1, by omega⟩
    rw [e]; rfl

theorem trimR_stop {s : Bytes} (h : ¬ EndsWhite s) : trimR s = s := by
  unfold trimR
  have hh : spaceLast s.reverse = none := by
    unfold spaceLast
    rw [Option.map_eq_none_iff, List.find?_eq_none]
    intro r hr hp
    rw [hasPrefix_iff, List.reverse_prefix] at hp
    obtain ⟨u, hu⟩ := hp
    exact h ⟨r, hr, u, hu.symm⟩
  cases hu : s.reverse with
  | nil => rw [trimSpaceRight, ← hu, List.reverse_reverse]
  | cons b u =>
    rw [hu] at hh
    rw [trimSpaceRight, hh]
    simp only
    rw [← hu, List.reverse_reverse]

theorem trimR_spec (s : Bytes) : ¬ EndsWhite (trimR s) ∧ ∃ b : List Nat, (∀ r ∈ b, r ∈ white) ∧ s = trimR s ++ b.flatMap utf8 := by
  by_cases h : EndsWhite s
  · obtain ⟨r, hr, t, rfl⟩ := h
    have : t.length < (t ++ utf8 r).length := by
      have := List.length_pos_iff.mpr (utf8_ne_nil r); simp; omega
    obtain ⟨h1, a, ha, e⟩ := trimR_spec t
    rw [trimR_white hr]
    refine ⟨h1, a ++ [r], ?_, ?_⟩
    · intro x hx
      rcases List.mem_append.mp hx with hx | hx
      · exact ha x hx
      · exact (List.mem_singleton.mp hx) ▸ hr
    · rw [List.flatMap_append, ← List.append_assoc, ← e]; simp
  · rw [trimR_stop h]
    exact ⟨h, [], by simp, by simp⟩
termination_by s.length

theorem trimR_all {b : List Nat} (hb : ∀ r ∈ b, r ∈ white) (s : Bytes) : trimR (s ++ b.flatMap utf8) = trimR s := by
  induction b generalizing s with
  | nil => simp
  | cons r b ih =>
    rw [List.flatMap_cons, ← List.append_assoc, ih (fun x hx => hb x (by simp [hx])), trimR_white (hb r (by simp))]

/-- No encoding of white space has inside it the first byte of another. -/
theorem no_overlap : ∀ r ∈ white, ∀ r' ∈ white, ∀ c ∈ (utf8 r').head?, c ∉ (utf8 r).tail := by decide +kernel

theorem trims_iff {d t : Bytes} : Trims d t ↔ trimSpaceU d = t := by
  constructor
  · rintro ⟨a, b, ha, hb, rfl, ht⟩
    rw [trimSpaceU, List.append_assoc, trimLeft_all ha]
    have ht' : trimR t = t := by
      refine trimR_stop ?_
      rintro ⟨r, hr, u, e⟩
      exact (ht r hr u).2 e
    show trimR _ = t
    by_cases hn : t = []
    · subst hn
      have := trimLeft_all hb []
      rw [List.append_nil] at this
      rw [List.nil_append, this]; exact ht'
    · rw [trimLeft_stop, trimR_all hb, ht']
      rintro ⟨r, hr, u, e⟩
      rcases List.append_eq_append_iff.mp e with ⟨w, h1, h2⟩ | ⟨w, h1, h2⟩
      · cases w with
        | nil => exact (ht r hr []).1 (by simpa using h1.symm)
        | cons c w =>
          cases t with
          | nil => exact hn rfl
          | cons x t =>
            cases b with
            | nil => simp at h2
            | cons r' b =>
              have hc : c ∈ (utf8 r').head? := by
                cases hu : utf8 r' with
                | nil => exact absurd hu (utf8_ne_nil r')
                | cons y v =>
                  rw [List.flatMap_cons, hu] at h2
                  simp only [List.cons_append, List.cons.injEq] at h2
                  simp [h2.1]
              refine no_overlap r hr r' (hb r' (by simp)) c hc ?_
              rw [h1]; simp
      · exact (ht r hr w).1 h1
  · rintro rfl
    obtain ⟨h1, a, ha, ea⟩ := trimLeft_spec d
    obtain ⟨h2, b, hb, eb⟩ := trimR_spec (trimSpaceLeft 0 d)
    refine ⟨a, b, ha, hb, ?_, ?_⟩
    · rw [List.append_assoc]
      refine ea.trans ?_
      congr 1
    · intro r hr u
      constructor
      · intro e
        refine h1 ⟨r, hr, u ++ b.flatMap utf8, ?_⟩
        rw [eb, ← List.append_assoc]; congr 1
      · intro e
        exact h2 ⟨r, hr, u, e⟩

theorem digits_iff {d n : Bytes} : Digits d n ↔ d.takeWhile (fun b => c!"0" ≤ b && b ≤ c!"9") = n := by
  have hd : ∀ b : Byte, IsDigit b ↔ (decide (c!"0" ≤ b) && decide (b ≤ c!"9")) = true := by
    apply forall_byte; decide +kernel
  unfold Digits
  simp only [hd]
  constructor
  · rintro ⟨r, rfl, h1, h2⟩
    cases r with
    | nil =>
      rw [List.append_nil]
      clear h2
      induction n with
      | nil => rfl
      | cons c n ih => rw [List.takeWhile_cons, if_pos (h1 c (by simp)), ih (fun b hb => h1 b (by simp [hb]))]
    | cons c r => exact takeWhile_append_stop h1 (by simpa using h2 c (by simp))
  · rintro rfl
    refine ⟨_, List.takeWhile_append_dropWhile.symm, fun b hb => List.all_eq_true.mp (List.all_takeWhile (l := d)) b hb, ?_⟩
    intro b hb
    have := List.head?_dropWhile_not (fun b => decide (c!"0" ≤ b) && decide (b ≤ c!"9")) d
    rw [hb] at this
    simpa using this

theorem trailing_iff {p q : Bytes} : (∃ k, p = q ++ List.replicate k c!" " ∧ ∀ b ∈ q.getLast?, b ≠ c!" ") ↔ trimRight p (· = c!" ") = q := by
  unfold trimRight
  constructor
  · rintro ⟨k, rfl, h⟩
    rw [List.reverse_append, List.reverse_replicate, List.dropWhile_append_of_pos (by simp)]
    rcases List.eq_nil_or_concat q with rfl | ⟨q, b, rfl⟩
    · simp
    · have := h b (by simp)
      simp [this]
  · rintro rfl
    refine ⟨(p.reverse.takeWhile (· = c!" ")).length, ?_, ?_⟩
    · have : List.replicate (p.reverse.takeWhile (· = c!" ")).length c!" " = (p.reverse.takeWhile (· = c!" ")).reverse := by
        rw [eq_comm, List.eq_replicate_iff]
        refine ⟨by simp, fun b hb => ?_⟩
        simpa using List.all_eq_true.mp (List.all_takeWhile (p := (· = c!" ")) (l := p.reverse)) b (by simpa using hb)
      rw [this, ← List.reverse_append, List.takeWhile_append_dropWhile, List.reverse_reverse]
    · intro b hb
      rw [List.getLast?_reverse] at hb
      have := List.head?_dropWhile_not (fun b => decide (b = c!" ")) p.reverse
      rw [hb] at this
      simpa using this

section
variable [HtmlEntities] {dec : Codec} {d : Bytes}

theorem path_reads {l ps : List Bytes} : unmarshalPath dec l = .ok ps ↔ ReadsTexts dec (l.filter (· ≠ [])) ps := by
  induction l generalizing ps with
  | nil =>
    simp only [unmarshalPath, List.filter_nil, Res.ok.injEq]
    constructor
    · rintro rfl; exact .nil
    · intro h; cases h; rfl
  | cons p l ih =>
    by_cases hp : p = []
    · subst hp
      simpa [unmarshalPath] using ih
    · rw [unmarshalPath, if_neg hp, List.filter_cons_of_pos (by simpa using hp)]
      cases hs : Str.unmarshal dec p with
      | ok s =>
        simp only [Res.bind_eq_ok, Res.pure_eq, Res.ok.injEq, ih]
        constructor
        · rintro ⟨ss, h, rfl⟩; exact .cons (str_reads.mp hs) h
        · intro h
          cases h with
          | cons h1 h2 =>
            rw [← str_reads, hs] at h1
            cases h1
            exact ⟨_, h2, rfl⟩
      | err e =>
        simp only [reduceCtorEq, false_iff]
        intro h
        cases h with
        | cons h1 h2 => rw [← str_reads, hs] at h1; cases h1
      | panic =>
        simp only [reduceCtorEq, false_iff]
        intro h
        cases h with
        | cons h1 h2 => rw [← str_reads, hs] at h1; cases h1

theorem userCommand_reads {old m : UserCommand} : old.unmarshal dec d = .ok m ↔ ReadsUserCommand dec old d m := by
  unfold UserCommand.unmarshal ReadsUserCommand
  obtain ⟨m1, m2, m3, m4⟩ := m
  simp only [trims_iff, digits_iff]
  generalize htt : trimSpaceU d = t
  rcases view_byte t c!" " with ⟨h1, ha, h2⟩ | ⟨a, r, h1, h2, h3, ha, hf, h4⟩
  · rw [splitMax_of_not_mem (absent_byte.mp ha)]
    simp only [reduceCtorEq, false_iff]
    rintro ⟨t', a, n, rfl, -, -, ⟨b, f, -⟩ | ⟨r, b, v, p, c, k, q, ps, f, -⟩⟩ <;> exact h2 _ _ f
  obtain ⟨ha', e⟩ := first_byte.mp hf
  have e1 : splitMax t c!" " 3 = a :: splitMax r c!" " 2 := by
    rw [e, splitMax_append ha']
  rw [e1]
  rcases view_byte r c!" " with ⟨k1, ka, k2⟩ | ⟨b, v, k1, k2, k3, ka, kf, k4⟩
  · rw [splitMax_of_not_mem (absent_byte.mp ka)]
    simp only [Res.bind_eq_ok, int_reads, Res.pure_eq, Res.ok.injEq, UserCommand.mk.injEq]
    constructor
    · rintro ⟨x, hx, y, hy, rfl, rfl, rfl, rfl⟩
      exact ⟨t, a, _, rfl, hx, hy, .inl ⟨r, hf, ka, rfl, rfl, rfl⟩⟩
    · rintro ⟨t', a', n, rfl, hx, hy, ⟨b, f, -, rfl, rfl, rfl⟩ | ⟨r, b, v, p, c, k, q, ps, f, f2, -⟩⟩
      · obtain ⟨rfl, rfl⟩ := (h4 _ _).mp f
        exact ⟨_, hx, _, hy, rfl, rfl, rfl, rfl⟩
      · obtain ⟨rfl, rfl⟩ := (h4 _ _).mp f
        exact absurd f2 (k2 _ _)
  · obtain ⟨kb, ke⟩ := first_byte.mp kf
    have e2 : splitMax r c!" " 2 = [b, v] := by
      rw [ke, splitMax_append kb]; rfl
    rw [e2]
    simp only
    rcases view_byte v c!"$" with ⟨g1, ga, g2⟩ | ⟨p, c, g1, g2, g3, ga, gf, g4⟩
    · simp only [g1, Res.bind_eq_ok, reduceCtorEq, and_false, exists_false, false_iff]
      rintro ⟨t', a', n, rfl, hx, hy, ⟨b', f, ab, -⟩ | ⟨r', b', v', p, c, k, q, ps, f, f2, -, f3, -⟩⟩
      · obtain ⟨rfl, rfl⟩ := (h4 _ _).mp f
        exact absurd ab ka
      · obtain ⟨rfl, rfl⟩ := (h4 _ _).mp f
        obtain ⟨rfl, rfl⟩ := (k4 _ _).mp f2
        exact g2 _ _ f3
    · simp only [g1, g2, g3]
      constructor
      · intro h
        simp only [Res.bind_eq_ok, int_reads] at h
        obtain ⟨x, hx, y, hy, h⟩ := h
        split at h
        · cases h
        rename_i hl
        simp only [Res.bind_eq_ok, str_reads, path_reads, Res.pure_eq, Res.ok.injEq, UserCommand.mk.injEq, Res.ok_bind] at h
        obtain ⟨ps, hps, s, hs, rfl, rfl, rfl, rfl⟩ := h
        obtain ⟨k, e3, e4⟩ := trailing_iff.mpr (rfl : trimRight p (· = c!" ") = _)
        refine ⟨t, a, _, rfl, hx, hy, .inr ⟨r, b, v, p, c, k, _, _, hf, kf, rfl, gf, ?_, e3, e4, parts_split.mpr rfl, hps, hs⟩⟩
        rintro rfl; simp at hl
      · rintro ⟨t', a', n, rfl, hx, hy, ⟨b', f, ab, -⟩ | ⟨r', b', v', p', c', k, q, ps, f, f2, rfl, f3, hne, e3, e4, hp, h5, h6⟩⟩
        · obtain ⟨rfl, rfl⟩ := (h4 _ _).mp f
          exact absurd ab ka
        · obtain ⟨rfl, rfl⟩ := (h4 _ _).mp f
          obtain ⟨rfl, rfl⟩ := (k4 _ _).mp f2
          obtain ⟨rfl, rfl⟩ := (g4 _ _).mp f3
          have e5 := trailing_iff.mp ⟨k, e3, e4⟩
          simp only [Res.bind_eq_ok, int_reads]
          refine ⟨_, hx, _, hy, ?_⟩
          rw [if_neg (by have := List.length_pos_iff.mpr hne; omega)]
          simp only [Res.bind_eq_ok, str_reads, path_reads, Res.pure_eq, Res.ok_bind]
          refine ⟨_, ?_, _, h6, rfl⟩
          rw [e5, parts_split.mp hp]
          exact h5

end

/-! ## User information -/

theorem hubs_reads {m m' : MyINFO} {v : Bytes} : m.hubs v = .ok m' ↔ ReadsHubs m v m' := by
  unfold MyINFO.hubs
  have no : ∀ n, ¬ ReadsInt [] n := by
    intro n h
    rw [← int_reads] at h
    cases h
  constructor
  · intro h
    split at h
    · rename_i hl
      have : v = [] := List.length_eq_zero_iff.mp hl
      subst this
      simp only [Res.ok.injEq] at h
      subst h; exact .none
    split at h
    · rename_i hn
      rw [Option.isNone_iff_eq_none, indexByte_none] at hn
      simp only [Res.bind_eq_ok, mapErr_ok, int_reads, Res.ok.injEq] at h
      obtain ⟨a, ha, rfl⟩ := h
      exact .one hn ha
    · split at h
      · rename_i x y z hs
        have := splitN_some hs
        simp only [Res.bind_eq_ok, mapErr_ok, int_reads, Res.ok.injEq] at h
        obtain ⟨a, ha, b, hb, c, hc, rfl⟩ := h
        exact .three (parts_split.mpr this.symm) ha hb hc
      · cases h
  · intro h
    cases h with
    | none => rfl
    | one h1 h2 =>
      rename_i a
      have hv : v.length ≠ 0 := by
        intro hl
        have : v = [] := List.length_eq_zero_iff.mp hl
        subst this; exact no _ h2
      rw [if_neg hv, if_pos (by rw [Option.isNone_iff_eq_none, indexByte_none]; exact h1)]
      simp only [Res.bind_eq_ok, mapErr_ok, int_reads]
      exact ⟨a, h2, rfl⟩
    | three hp h1 h2 h3 =>
      rename_i x y z a b c
      have hp := parts_split.mp hp
      have hv : v.length ≠ 0 := by
        intro hl
        have : v = [] := List.length_eq_zero_iff.mp hl
        subst this; simp [split] at hp
      have hn : ¬ (indexByte v c!"/").isNone = true := by
        rw [Option.isNone_iff_eq_none, indexByte_none]
        intro hm
        rw [split_of_not_mem hm] at hp
        simp at hp
      have hs : splitN v c!"/" 3 = some [x, y, z] := by rw [splitN_eq, hp]; rfl
      rw [if_neg hv, if_neg hn, hs]
      simp only [Res.bind_eq_ok, mapErr_ok, int_reads]
      exact ⟨_, h1, _, h2, _, h3, rfl⟩

theorem upperKey_eq (k : Byte) : upperKey k = letter k := rfl

theorem byteString_eq (c : Byte) : byteString c = utf8 c.toNat := by
  revert c; apply forall_byte; decide +kernel

theorem tagField_sound {first : Bool} {c c' f : Bytes} {m m' : MyINFO} (h : MyINFO.tagField first c m f = .ok (c', m')) :
    ReadsTagField first (c, m) f (c', m') := by
  unfold MyINFO.tagField at h
  split at h
  · rename_i hl
    have : f = [] := List.length_eq_zero_iff.mp hl
    subst this
    simp only [Res.ok.injEq, Prod.mk.injEq] at h
    obtain ⟨rfl, rfl⟩ := h
    exact .empty
  rename_i hl
  have hne : f ≠ [] := fun h => hl (by rw [h]; rfl)
  rcases view_byte f c!":" with ⟨h1, ha, h2⟩ | ⟨a, v, h1, h2, h3, ha, hf, h4⟩
  · rw [h1] at h
    simp only at h
    split at h
    · rename_i hfi
      simp only [Res.ok.injEq, Prod.mk.injEq] at h
      obtain ⟨rfl, rfl⟩ := h
      subst hfi
      exact .client hne (absent_byte.mp ha)
    · cases h
  · obtain ⟨hca, rfl⟩ := first_byte.mp hf
    have e : ∀ u : Bytes, u ++ c!":" :: v = u ++ b!":" ++ v := by simp
    rw [h1] at h
    simp only [h2, h3, Res.ok_bind] at h
    split at h
    · cases h
    rename_i hl'
    split at h
    · rename_i k
      have hk : k ≠ c!":" := by simp at hca; exact Ne.symm hca
      rw [e]
      simp only [Res.bind_eq_ok, Res.ok.injEq, Prod.mk.injEq] at h
      obtain ⟨m1, h, rfl, rfl⟩ := h
      unfold MyINFO.letter at h
      rw [upperKey_eq] at h
      split at h
      · rename_i hq
        simp only [Res.ok.injEq] at h
        subst h; exact .version hk hq
      split at h
      · rename_i hq
        simp only [Res.ok.injEq] at h
        subst h
        rcases v with - | ⟨x, - | ⟨y, t⟩⟩
        · exact .noMode hk hq (by simp)
        · exact .mode hk hq
        · exact .noMode hk hq (by simp)
      split at h
      · rename_i hq
        exact .hubs hk hq (hubs_reads.mp h)
      split at h
      · rename_i hq
        simp only [Res.bind_eq_ok, mapErr_ok, int_reads, Res.ok.injEq] at h
        obtain ⟨a, ha, rfl⟩ := h
        exact .slots hk hq ha
      · rename_i q1 q2 q3 q4
        simp only [Res.ok.injEq] at h
        subst h
        rw [byteString_eq]
        exact .extra hk (by simp [q1, q2, q3, q4])
    · rename_i hk
      simp only [Res.ok.injEq, Prod.mk.injEq] at h
      obtain ⟨rfl, rfl⟩ := h
      rw [e]
      refine .long hca ?_
      match a, hl', hk with
      | [], h, _ => exact absurd rfl h
      | [k], _, h => exact absurd rfl (h k)
      | _ :: _ :: _, _, _ => simp

theorem tagField_complete {first : Bool} {s s' : Bytes × MyINFO} {f : Bytes} (h : ReadsTagField first s f s') :
    MyINFO.tagField first s.1 s.2 f = .ok s' := by
  have one : ∀ (k : Byte) (v c : Bytes) (m : MyINFO), k ≠ c!":" → MyINFO.tagField first c m ([k] ++ b!":" ++ v) =
      (do let m ← m.letter (letter k) v; .ok (c, m)) := by
    intro k v c m hk
    have hi : indexByte ([k] ++ b!":" ++ v) c!":" = some 1 := by
      simp [indexByte, hk]
    rw [MyINFO.tagField, if_neg (by simp), hi]
    have : sliceFrom ([k] ++ b!":" ++ v) (1 + 1) = .ok v := by rw [sliceFrom_ok (by simp)]; rfl
    simp only
    rw [if_neg (by decide), this]
    rfl
  cases h with
  | empty => rfl
  | client h1 h2 =>
    rw [MyINFO.tagField, if_neg (fun h => h1 (List.length_eq_zero_iff.mp h)), indexByte_none.mpr h2]
    rfl
  | version hk hq => rw [one _ _ _ _ hk]; unfold MyINFO.letter; rw [if_pos hq]; rfl
  | mode hk hq => rw [one _ _ _ _ hk]; unfold MyINFO.letter; rw [if_neg (by rw [hq]; decide), if_pos hq]; rfl
  | @noMode _ _ v _ _ hk hq hv =>
    rw [one _ _ _ _ hk]; unfold MyINFO.letter; rw [if_neg (by rw [hq]; decide), if_pos hq]
    rcases v with - | ⟨x, - | ⟨y, t⟩⟩
    · rfl
    · simp at hv
    · rfl
  | hubs hk hq h =>
    rw [one _ _ _ _ hk]; unfold MyINFO.letter; rw [if_neg (by rw [hq]; decide), if_neg (by rw [hq]; decide), if_pos hq, hubs_reads.mpr h]; rfl
  | slots hk hq h =>
    rw [one _ _ _ _ hk]; unfold MyINFO.letter; rw [if_neg (by rw [hq]; decide), if_neg (by rw [hq]; decide), if_neg (by rw [hq]; decide), if_pos hq,
      mapErr_ok.mpr (int_reads.mpr h)]; rfl
  | extra hk hq =>
    simp only [List.mem_cons, List.not_mem_nil, or_false, not_or] at hq
    rw [one _ _ _ _ hk]; unfold MyINFO.letter; rw [if_neg hq.1, if_neg hq.2.1, if_neg hq.2.2.1, if_neg hq.2.2.2, byteString_eq]; rfl
  | @long _ k v c m h1 h2 =>
    have e : k ++ b!":" ++ v = k ++ c!":" :: v := by simp
    have hi : indexByte (k ++ c!":" :: v) c!":" = some k.length := indexByte_append h1
    rw [e, MyINFO.tagField, if_neg (by simp), hi]
    simp only
    rw [if_neg (by omega), sliceFrom_ok (by simp)]
    simp only [Res.ok_bind, List.take_left]
    split
    · simp at h2
    · congr 5
      rw [show k.length + 1 = (k ++ b!":").length by simp, ← e, List.drop_left]

theorem tagField_iff {first : Bool} {c f : Bytes} {m : MyINFO} {s : Bytes × MyINFO} :
    MyINFO.tagField first c m f = .ok s ↔ ReadsTagField first (c, m) f s :=
  ⟨tagField_sound, tagField_complete⟩

theorem tagFields_iff {first : Bool} {c : Bytes} {m : MyINFO} {fs : List Bytes} {s : Bytes × MyINFO} :
    MyINFO.tagFields first c m fs = .ok s ↔ ReadsTagFields first (c, m) fs s := by
  induction fs generalizing first c m with
  | nil =>
    simp only [MyINFO.tagFields, Res.ok.injEq]
    constructor
    · rintro rfl; exact .nil
    · intro h; cases h; rfl
  | cons f fs ih =>
    simp only [MyINFO.tagFields, Res.bind_eq_ok, tagField_iff]
    constructor
    · rintro ⟨⟨c', m'⟩, h1, h2⟩
      exact .cons h1 (ih.mp h2)
    · intro h
      cases h with
      | @cons _ _ s' _ _ _ h1 h2 => exact ⟨s', h1, ih.mpr h2⟩

theorem tag_reads {m m' : MyINFO} {tag : Bytes} : m.unmarshalTag tag = .ok m' ↔ ReadsTag m tag m' := by
  unfold MyINFO.unmarshalTag ReadsTag
  have key : ∀ c r, TagCut tag c r → (∀ c' r', TagCut tag c' r' → c' = c ∧ r' = r) → ((do
      let (client, m) ← MyINFO.tagFields true c { m with extra := [] } (split r c!",")
      Res.ok { m with client := { m.client with name := client } }) = .ok m' ↔
      ∃ c r fs c' m1, TagCut tag c r ∧ Parts c!"," r fs ∧ ReadsTagFields true (c, { m with extra := [] }) fs (c', m1) ∧
        m' = { m1 with client := { m1.client with name := c' } }) := by
    intro c r hc hu
    simp only [Res.bind_eq_ok, tagFields_iff, Res.ok.injEq]
    constructor
    · rintro ⟨⟨c', m1⟩, h, rfl⟩
      exact ⟨c, r, _, c', m1, hc, parts_split.mpr rfl, h, rfl⟩
    · rintro ⟨c2, r2, fs, c', m1, h1, h2, h3, rfl⟩
      obtain ⟨rfl, rfl⟩ := hu _ _ h1
      rw [parts_split] at h2; subst h2
      exact ⟨(c', m1), h3, rfl⟩
  have cut : ∀ (x : Byte) (c r : Bytes), tag = c ++ [c!" ", x, c!":"] ++ r → sliceFrom tag (c.length + 1) = .ok ([x, c!":"] ++ r) := by
    rintro x c r rfl
    rw [sliceFrom_ok (by simp), show c ++ [c!" ", x, c!":"] ++ r = (c ++ [c!" "]) ++ ([x, c!":"] ++ r) by simp,
      show c.length + 1 = (c ++ [c!" "]).length by simp, List.drop_left]
  unfold tagVersion
  rcases view_index tag b!" V:" with ⟨h1, ha, h2⟩ | ⟨c, r, h1, h2, h3, ha, hf, h4⟩
  · rcases view_index tag b!" v:" with ⟨g1, ga, g2⟩ | ⟨c, r, g1, g2, g3, ga, gf, g4⟩
    · simp only [h1, g1]
      refine key [] tag (.none ha ga) ?_
      intro c' r' h
      cases h with
      | upper h => exact absurd h (h2 _ _)
      | lower _ h => exact absurd h (g2 _ _)
      | none => exact ⟨rfl, rfl⟩
    · simp only [h1, g1, g2, cut _ _ _ gf.1, Res.ok_bind]
      refine key c _ (.lower ha gf) ?_
      intro c' r' h
      cases h with
      | upper h => exact absurd h (h2 _ _)
      | lower _ h => obtain ⟨rfl, rfl⟩ := (g4 _ _).mp h; exact ⟨rfl, rfl⟩
      | none _ h => exact absurd h ga
  · simp only [h1, h2, cut _ _ _ hf.1, Res.ok_bind]
    refine key c _ (.upper hf) ?_
    intro c' r' h
    cases h with
    | upper h => obtain ⟨rfl, rfl⟩ := (h4 _ _).mp h; exact ⟨rfl, rfl⟩
    | lower h _ => exact absurd h ha
    | none h _ => exact absurd h ha

theorem desc_reads {m m' : MyINFO} {f desc : Bytes} {t : Bool} : m.descField f = .ok (desc, m', t) ↔ ReadsDesc m f desc m' t := by
  unfold MyINFO.descField
  rcases view_last f c!"<" with ⟨h1, ha, h2⟩ | ⟨a, b, h1, h2, h3, ha, hf, h4⟩
  · simp only [h1, Res.ok.injEq, Prod.mk.injEq]
    constructor
    · rintro ⟨rfl, rfl, rfl⟩; exact .plain (absent_byte.mp ha)
    · intro h
      cases h with
      | plain => exact ⟨rfl, rfl, rfl⟩
      | tag h => exact absurd h (h2 _ _)
  · simp only [h1, h2, h3, Res.ok_bind]
    constructor
    · intro h
      split at h
      · cases h
      rename_i hl
      simp only [Res.bind_eq_ok, tag_reads, Res.ok.injEq, Prod.mk.injEq] at h
      obtain ⟨m1, h, rfl, rfl, rfl⟩ := h
      exact .tag hf (fun h => hl (by rw [h]; rfl)) (without_byte.mpr rfl) h
    · intro h
      cases h with
      | plain h => exact absurd (absent_byte.mpr h) ha
      | tag g1 g2 g3 g4 =>
        obtain ⟨rfl, rfl⟩ := (h4 _ _).mp g1
        rw [if_neg (fun h => g2 (List.length_eq_zero_iff.mp h)), without_byte.mp g3]
        simp only [Res.bind_eq_ok, tag_reads]
        exact ⟨_, g4, rfl⟩

section
variable [HtmlEntities] {dec : Codec} {d : Bytes}

theorem conn_reads {m m' : MyINFO} {f : Bytes} : m.connField dec f = .ok m' ↔
    ∃ conn flag, ((f = [] ∧ conn = m.conn ∧ flag = m.flag) ∨ ∃ t, f = t ++ [flag] ∧ ReadsText dec t conn) ∧
      m' = { m with conn := conn, flag := flag } := by
  unfold MyINFO.connField
  rcases List.eq_nil_or_concat f with rfl | ⟨t, x, rfl⟩
  · simp only [List.getLast?_nil, Res.ok.injEq]
    constructor
    · rintro rfl; exact ⟨_, _, .inl ⟨trivial, rfl, rfl⟩, rfl⟩
    · rintro ⟨c, fl, ⟨-, rfl, rfl⟩ | ⟨t, h, -⟩, rfl⟩
      · rfl
      · simp at h
  · rw [List.concat_eq_append]
    simp only [List.getLast?_append, List.getLast?_singleton, Option.some_or, Res.bind_eq_ok, str_reads, Res.ok.injEq, List.dropLast_concat]
    constructor
    · rintro ⟨s, h, rfl⟩; exact ⟨s, x, .inr ⟨t, rfl, h⟩, rfl⟩
    · rintro ⟨c, fl, ⟨h, -⟩ | ⟨t', h, h'⟩, rfl⟩
      · simp at h
      · have := List.append_inj' h rfl
        obtain ⟨rfl, e⟩ := this
        simp only [List.cons.injEq, and_true] at e
        subst e
        exact ⟨_, h', rfl⟩

omit [HtmlEntities] in
theorem size_reads {m : MyINFO} {f : Bytes} {n : Nat} : (m.sizeField f).shareSize = n ↔
    ((f = [] ∧ n = m.shareSize) ∨ (f ≠ [] ∧ (ReadsNat f n ∨ (n = 0 ∧ ∀ k, ¬ ReadsNat f k)))) := by
  unfold MyINFO.sizeField
  by_cases hf : f = []
  · subst hf; simp [eq_comm]
  · rw [if_pos (fun h => hf (List.length_eq_zero_iff.mp h))]
    simp only [hf, false_and, not_false_eq_true, true_and, false_or, ne_eq, ← nat_reads]
    cases h : parseUin64Trim f with
    | ok k => simp
    | err e => simp [eq_comm]
    | panic => simp [eq_comm]

omit [HtmlEntities] in
theorem sizeField_eq (m : MyINFO) (f : Bytes) : m.sizeField f = { m with shareSize := (m.sizeField f).shareSize } := by
  unfold MyINFO.sizeField
  split <;> rfl

theorem fields_reads {m m' : MyINFO} {f1 f2 f3 f4 f5 : Bytes} : MyINFO.fields dec m f1 f2 f3 f4 f5 = .ok m' ↔
    ∃ mode desc m1 tagged s2 conn flag, f2 = [mode] ∧ ReadsDesc m f1 desc m1 tagged ∧ ReadsText dec desc m'.desc ∧
      ((f3 = [] ∧ conn = m1.conn ∧ flag = m1.flag) ∨ ∃ t, f3 = t ++ [flag] ∧ ReadsText dec t conn) ∧ ReadsText dec f4 m'.email ∧
      ((f5 = [] ∧ s2 = m1.shareSize) ∨ (f5 ≠ [] ∧ (ReadsNat f5 s2 ∨ (s2 = 0 ∧ ∀ n, ¬ ReadsNat f5 n)))) ∧
      m' = { m1 with
        desc := m'.desc, email := m'.email, conn := conn, flag := flag, shareSize := s2
        mode := if tagged then m1.mode else if mode = c!" " then 0 else mode } := by
  have key : ∀ (m1 : MyINFO) (s : Bytes), (do
      let m ← m1.connField dec f3
      let e ← Str.unmarshal dec f4
      Res.ok ({ m with email := e }.sizeField f5)) = .ok m' ↔ ∃ s2 conn flag,
      ((f3 = [] ∧ conn = m1.conn ∧ flag = m1.flag) ∨ ∃ t, f3 = t ++ [flag] ∧ ReadsText dec t conn) ∧ ReadsText dec f4 m'.email ∧
      ((f5 = [] ∧ s2 = m1.shareSize) ∨ (f5 ≠ [] ∧ (ReadsNat f5 s2 ∨ (s2 = 0 ∧ ∀ n, ¬ ReadsNat f5 n)))) ∧
      m' = { m1 with email := m'.email, conn := conn, flag := flag, shareSize := s2 } := by
    intro m1 s
    simp only [Res.bind_eq_ok, str_reads, conn_reads, Res.ok.injEq]
    constructor
    · rintro ⟨m2, ⟨conn, flag, hc, rfl⟩, e, he, hm⟩
      have h1 := size_reads.mp (rfl : ({ m1 with conn := conn, flag := flag, email := e : MyINFO }.sizeField f5).shareSize = _)
      have h2 := sizeField_eq { m1 with conn := conn, flag := flag, email := e } f5
      rw [hm] at h1 h2
      have h3 : m'.email = e := by rw [h2]
      exact ⟨m'.shareSize, conn, flag, hc, h3 ▸ he, h1, by rw [h3]; exact h2⟩
    · rintro ⟨s2, conn, flag, hc, he, hs, hm⟩
      refine ⟨_, ⟨conn, flag, hc, rfl⟩, _, he, ?_⟩
      have h1 := size_reads (m := { m1 with conn := conn, flag := flag, email := m'.email }) (f := f5).mpr hs
      have h2 := sizeField_eq { m1 with conn := conn, flag := flag, email := m'.email } f5
      rw [h1] at h2
      exact h2.trans hm.symm
  unfold MyINFO.fields
  simp only [Res.bind_eq_ok, str_reads, desc_reads, Prod.exists]
  constructor
  · rintro ⟨desc, m1, tagged, hd, s, hs, h⟩
    split at h
    · rename_i c
      cases tagged with
      | true =>
        obtain ⟨s2, conn, flag, g1, g2, g3, g4⟩ := (key _ s).mp h
        have e : m'.desc = s := by rw [g4]; rfl
        refine ⟨c, desc, m1, true, s2, conn, flag, rfl, hd, e ▸ hs, g1, g2, g3, ?_⟩
        rw [e]; exact g4
      | false =>
        obtain ⟨s2, conn, flag, g1, g2, g3, g4⟩ := (key _ s).mp h
        have e : m'.desc = s := by rw [g4]; rfl
        refine ⟨c, desc, m1, false, s2, conn, flag, rfl, hd, e ▸ hs, g1, g2, g3, ?_⟩
        rw [e]; exact g4
    · cases h
  · rintro ⟨mode, desc, m1, tagged, s2, conn, flag, rfl, hd, hs, g1, g2, g3, g4⟩
    refine ⟨desc, m1, tagged, hd, _, hs, ?_⟩
    refine (key _ m'.desc).mpr ⟨s2, conn, flag, ?_⟩
    cases tagged with
    | true => exact ⟨g1, g2, g3, g4⟩
    | false => exact ⟨g1, g2, g3, g4⟩

omit [HtmlEntities] in
theorem hubs_name {m m' : MyINFO} {v : Bytes} (h : ReadsHubs m v m') : m'.name = m.name := by cases h <;> rfl

omit [HtmlEntities] in
theorem tagField_name {first : Bool} {s s' : Bytes × MyINFO} {f : Bytes} (h : ReadsTagField first s f s') : s'.2.name = s.2.name := by
  cases h with
  | hubs _ _ h => exact hubs_name h
  | _ => rfl

omit [HtmlEntities] in
theorem tagFields_name {first : Bool} {s s' : Bytes × MyINFO} {fs : List Bytes} (h : ReadsTagFields first s fs s') : s'.2.name = s.2.name := by
  induction h with
  | nil => rfl
  | cons h _ ih => rw [ih, tagField_name h]

omit [HtmlEntities] in
theorem desc_name {m m' : MyINFO} {f desc : Bytes} {t : Bool} (h : ReadsDesc m f desc m' t) : m'.name = m.name := by
  cases h with
  | plain => rfl
  | tag _ _ _ h =>
    obtain ⟨c, r, fs, c', m1, -, -, h, rfl⟩ := h
    exact tagFields_name h

theorem myinfo_reads {old m : MyINFO} : old.unmarshal dec d = .ok m ↔ ReadsMyINFO dec old d m := by
  unfold MyINFO.unmarshal ReadsMyINFO
  rcases view_prefix d b!"$ALL " with ⟨k1, k2, k3⟩ | ⟨r, hw, k1, k2, k3, k4⟩
  · simp only [k1, Bool.false_eq_true, if_false, reduceCtorEq, false_iff]
    rintro ⟨name, rest, f1, mode, f3, f4, f5, f6, desc, m1, tagged, s2, conn, flag, ⟨r, h, -⟩, -⟩
    exact k3 r h
  have k2 : sliceFrom d 5 = .ok r := k2
  simp only [k1, if_true, k2, Res.ok_bind, k4, exists_eq_left]
  rcases view_byte r c!" " with ⟨h1, ha, h2⟩ | ⟨a, b, h1, h2, h3, ha, hf, h4⟩
  · simp [h1, h2]
  simp only [h1, h2, h3, Res.ok_bind, h4]
  constructor
  · intro h
    simp only [Res.bind_eq_ok, name_reads] at h
    obtain ⟨n, hn, h⟩ := h
    split at h
    · rename_i f1 f2 f3 f4 f5 f6 hs
      obtain ⟨mode, desc, m1, tagged, s2, conn, flag, rfl, hd, g1, g2, g3, g4, g5⟩ := fields_reads.mp h
      have e : m.name = n := by rw [g5]; exact desc_name hd
      refine ⟨a, b, f1, mode, f3, f4, f5, f6, desc, m1, tagged, s2, conn, flag, ⟨rfl, rfl⟩, parts_split.mpr hs, e ▸ hn, e ▸ hd, g1, g2, g3, g4, ?_⟩
      have e' : m.name = m1.name := by rw [g5]
      rw [e']
      exact g5
    · cases h
  · rintro ⟨name, rest, f1, mode, f3, f4, f5, f6, desc, m1, tagged, s2, conn, flag, ⟨rfl, rfl⟩, hp, hn, hd, ht, hc, he, hs, hm⟩
    simp only [Res.bind_eq_ok, name_reads]
    refine ⟨_, hn, ?_⟩
    rw [parts_split.mp hp]
    simp only
    refine fields_reads.mpr ⟨mode, desc, m1, tagged, s2, conn, flag, rfl, hd, ht, hc, he, hs, ?_⟩
    have e' : m1.name = m.name := by have := desc_name hd; exact this
    rw [e']
    exact hm

/-! ## All messages -/

/-- A payload is decoded to a message exactly if it is read as that. -/
theorem message_reads {old m : Msg} : old.unmarshal dec d = .ok m ↔ Reads dec old d m := by
  have wrap : ∀ {α : Type} {r : Res α} {f : α → Msg} {P : α → Prop}, (∀ x, r = .ok x ↔ P x) →
      ((do let x ← r; pure (f x)) = .ok m ↔ ∃ x, m = f x ∧ P x) := by
    intro α r f P h
    simp only [Res.bind_eq_ok, Res.pure_eq, Res.ok.injEq, h]
    constructor
    · rintro ⟨x, hx, rfl⟩; exact ⟨x, rfl, hx⟩
    · rintro ⟨x, rfl, hx⟩; exact ⟨x, hx, rfl⟩
  cases old with
  | chat o => exact wrap fun _ => chat_reads
  | priv o => exact wrap fun _ => private_reads
  | mcTo o => exact wrap fun _ => mcTo_reads
  | userCommand o => exact wrap fun _ => userCommand_reads
  | connectToMe o => exact wrap fun _ => ctm_reads
  | revConnectToMe o => exact wrap fun _ => rctm_reads
  | errMsg k o => exact wrap fun _ => err_reads
  | name k o => exact wrap fun _ => name_reads
  | text k o => exact wrap fun _ => str_reads
  | noArgs k =>
    simp only [Msg.unmarshal, Reads, NoArgs.unmarshal, Res.bind_eq_ok, Res.pure_eq, Res.ok.injEq]
    cases d with
    | nil => simp [eq_comm]
    | cons => simp
  | value k o => simp [Msg.unmarshal, Reads, RawValue.unmarshal, eq_comm]
  | failOver o => exact wrap fun _ => by simp [FailOver.unmarshal, parts_split]
  | supports o =>
    refine (wrap (P := fun l => ∃ ps, l = ps.filter (· ≠ []) ∧ Parts c!" " d ps) fun _ => supports_reads).trans ?_
    constructor
    · rintro ⟨l, rfl, ps, rfl, h⟩; exact ⟨ps, rfl, h⟩
    · rintro ⟨ps, rfl, h⟩; exact ⟨_, rfl, ps, rfl, h⟩
  | lock o => exact wrap fun _ => lock_reads
  | hubINFO o => exact wrap fun _ => hub_reads
  | names k o => exact wrap fun _ => names_reads
  | userIP o => exact wrap fun _ => userIP_reads
  | adcGet o => exact wrap fun _ => get_reads
  | adcSnd o => exact wrap fun _ => snd_reads
  | direction o => exact wrap fun _ => direction_reads
  | search o => exact wrap fun _ => search_reads
  | sr o => exact wrap fun _ => sr_reads
  | sa o => exact wrap fun _ => sa_reads
  | sp o => exact wrap fun _ => sp_reads
  | myINFO o => exact wrap fun _ => myinfo_reads
  | raw t o => simp [Msg.unmarshal, Reads, eq_comm]

end

section
attribute [local instance] basicEntities
set_option maxRecDepth 4000

example : Reads none (.chat {}) b!"<bob> 1 &lt; 2" (.chat { name := b!"bob", text := b!"1 < 2" }) := message_reads.mp (by with_unfolding_all rfl)

example : Reads none (.chat { name := b!"ann" }) b!"hello" (.chat { name := b!"ann", text := b!"hello" }) :=
  message_reads.mp (by with_unfolding_all rfl)

example : ¬ ∃ m, Reads none (.chat {}) b!"<bob\n> hi" m := by
  rintro ⟨m, h⟩
  have h := message_reads.mpr h
  have e : Msg.unmarshal none (.chat {}) b!"<bob\n> hi" = .err .protocolViolation := by with_unfolding_all rfl
  rw [e] at h; cases h

example : Reads none (.userCommand {}) b!" 1 3x A\\B  $$Kick | " (.userCommand { typ := 1, context := 3, path := [b!"A", b!"B"], command := b!"$Kick |" }) :=
  message_reads.mp (by with_unfolding_all rfl)

example : Reads none (.myINFO {}) b!"$ALL bob hi<++ v:0.7,m:A,h:1/2/3,s:4,Up:5>$ $LAN\x01$$77$"
    (.myINFO {
      name := b!"bob", desc := b!"hi", client := { name := b!"++", version := b!"0.7" }, mode := c!"A", hubsNormal := 1, hubsRegistered := 2
      hubsOperator := 3, slots := 4, extra := [(b!"Up", b!"5")], conn := b!"LAN", flag := 1, shareSize := 77 }) :=
  message_reads.mp (by with_unfolding_all rfl)

example : Reads none (.sr {}) b!"bob a\\b 1/2\x05hub (1.2.3.4:411)" (.sr {
    src := b!"bob", path := [b!"a", b!"b"], isDir := true, freeSlots := 1, totalSlots := 2
    hubName := b!"hub", hubAddress := b!"1.2.3.4:411" }) := message_reads.mp (by with_unfolding_all rfl)

example : Reads none (.search {}) b!"Hub:bob T?F?100?1?a$b" (.search { user := b!"bob", sizeRestricted := true, size := 100, dataType := 1, pattern := b!"a b" }) :=
  message_reads.mp (by with_unfolding_all rfl)

end

end Verif.Props.NmdcReads
