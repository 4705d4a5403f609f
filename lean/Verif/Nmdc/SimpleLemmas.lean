import Verif.Nmdc.Simple
import Verif.Nmdc.Wire
import Verif.Nmdc.NumLemmas

/-!
# Lemmas on the small messages
-/

namespace Verif.Nmdc

open Verif.Go Verif.Spec Verif.Props

/-! ## Separators -/

theorem splitDD_append {a b : Bytes} (h : c!"$" ∉ a) : splitDD (a ++ dd ++ b) = a :: splitDD b := by
  induction a with
  | nil => simp [dd, splitDD]
  | cons x a ih =>
    simp only [List.mem_cons, not_or] at h
    have ih := ih h.2
    cases a with
    | nil =>
      simp only [dd, List.cons_append, List.nil_append] at ih ⊢
      rw [splitDD, if_neg (by rintro ⟨h1, -⟩; exact h.1 h1.symm), ih]
    | cons y a =>
      simp only [List.cons_append] at ih ⊢
      rw [splitDD, if_neg (by rintro ⟨h1, -⟩; exact h.1 h1.symm), ih]

theorem splitDD_single {a : Bytes} (h : c!"$" ∉ a) : splitDD a = [a] := by
  induction a with
  | nil => rfl
  | cons x a ih =>
    simp only [List.mem_cons, not_or] at h
    cases a with
    | nil => rfl
    | cons y a =>
      rw [splitDD, if_neg (by rintro ⟨h1, -⟩; exact h.1 h1.symm), ih h.2]

theorem trimSuffix_append (a suf : Bytes) : trimSuffix (a ++ suf) suf = a := by
  unfold trimSuffix
  rw [if_pos (by simp)]
  simp

theorem trimSuffix_ne {a suf : Bytes} (h : ¬ suf <:+ a) : trimSuffix a suf = a := by
  unfold trimSuffix
  rw [if_neg (by simpa using h)]

/-- Pieces joined with `$$`. -/
def joinDD : List Bytes → Bytes
  | [] => []
  | [p] => p
  | p :: q :: ps => p ++ dd ++ joinDD (q :: ps)

theorem splitDD_join {ps : List Bytes} (hne : ps ≠ []) (h : ∀ p ∈ ps, c!"$" ∉ p) : splitDD (joinDD ps) = ps := by
  induction ps with
  | nil => simp at hne
  | cons p ps ih =>
    cases ps with
    | nil => exact splitDD_single (h p (by simp))
    | cons q ps =>
      rw [joinDD, splitDD_append (h p (by simp)), ih (by simp) (fun x hx => h x (by simp [hx]))]

theorem joinDD_append {ps : List Bytes} (hne : ps ≠ []) : (ps.flatMap (· ++ dd)) = joinDD ps ++ dd := by
  induction ps with
  | nil => simp at hne
  | cons p ps ih =>
    cases ps with
    | nil => simp [joinDD]
    | cons q ps => rw [List.flatMap_cons, ih (by simp), joinDD]; simp

theorem joinDD_nil {ps : List Bytes} (h : joinDD ps = []) : ps = [] ∨ ps = [[]] := by
  cases ps with
  | nil => exact .inl rfl
  | cons p ps =>
    cases ps with
    | nil => simp [joinDD] at h; simp [h]
    | cons q ps => simp [joinDD, dd] at h

theorem splitMax_join {ps : List Bytes} {sep : Byte} {n : Nat} (hne : ps ≠ []) (h : ∀ p ∈ ps, sep ∉ p) (hn : ps.length ≤ n) :
    splitMax (join ps sep) sep n = ps := by
  induction ps generalizing n with
  | nil => simp at hne
  | cons p ps ih =>
    cases ps with
    | nil =>
      obtain ⟨k, rfl⟩ : ∃ k, n = k + 1 := ⟨n - 1, by simp at hn; omega⟩
      exact splitMax_of_not_mem (h p (by simp)) k
    | cons q ps =>
      obtain ⟨k, rfl⟩ : ∃ k, n = k + 2 := ⟨n - 2, by simp at hn; omega⟩
      rw [join_cons2, splitMax_append (h p (by simp)), ih (by simp) (fun x hx => h x (by simp [hx])) (by simp at hn ⊢; omega)]

/-! ## Name lists -/

theorem marshalAll_ok {enc : Codec} {ns : List Bytes} {w : Bytes} (h : Names.marshalAll enc ns = .ok w) :
    ∃ ws, All2 (fun n x => Name.marshal enc n = .ok x) ns ws ∧ w = ws.flatMap (· ++ dd) := by
  induction ns generalizing w with
  | nil => simp [Names.marshalAll] at h; exact ⟨[], .nil, by simp [← h]⟩
  | cons n ns ih =>
    simp only [Names.marshalAll, Res.bind_eq_ok, Res.pure_eq, Res.ok.injEq] at h
    obtain ⟨x, hx, y, hy, rfl⟩ := h
    obtain ⟨ws, h1, rfl⟩ := ih hy
    exact ⟨x :: ws, .cons hx h1, by simp⟩

theorem unmarshalAll_ok [HtmlEntities] {dec : Codec} {ns ws : List Bytes}
    (h : All2 (fun n x => Name.unmarshal dec x = .ok n) ns ws) : Names.unmarshalAll dec ws = .ok ns := by
  induction h with
  | nil => rfl
  | cons h _ ih => simp [Names.unmarshalAll, h, ih]

theorem userIP_marshal_ok {enc : Codec} {l : List UserAddress} {w : Bytes} (h : UserIP.marshal enc l = .ok w) :
    ∃ ws, All2 (fun a x => ∃ n, Name.marshal enc a.name = .ok n ∧ x = n ++ b!" " ++ a.ip) l ws ∧ w = ws.flatMap (· ++ dd) := by
  induction l generalizing w with
  | nil => simp [UserIP.marshal] at h; exact ⟨[], .nil, by simp [← h]⟩
  | cons n ns ih =>
    simp only [UserIP.marshal, Res.bind_eq_ok, Res.pure_eq, Res.ok.injEq] at h
    obtain ⟨x, hx, y, hy, rfl⟩ := h
    obtain ⟨ws, h1, rfl⟩ := ih hy
    exact ⟨(x ++ b!" " ++ n.ip) :: ws, .cons ⟨x, hx, rfl⟩ h1, by simp⟩

theorem userIP_entries_ok [HtmlEntities] {dec : Codec} {l : List UserAddress} {ws : List Bytes}
    (h : All2 (fun a x => UserIP.entry dec x = .ok a) l ws) : UserIP.entries dec ws = .ok l := by
  induction h with
  | nil => rfl
  | cons h _ ih => simp [UserIP.entries, h, ih]

/-! ## Key -/

theorem key_prefix {p s : Bytes} (hp : c!"/" ∉ p) (h : p <+: escWith keyReplace s) : p <+: s := by
  have hhead : ∀ b v, keyReplace b = some v → ∃ u, v = c!"/" :: u := by
    intro b v h
    unfold keyReplace at h
    repeat' split at h
    all_goals simp at h
    all_goals subst h; exact ⟨_, rfl⟩
  induction p generalizing s with
  | nil => exact List.nil_prefix
  | cons c p ih =>
    simp only [List.mem_cons, not_or] at hp
    cases s with
    | nil => simp at h
    | cons b s =>
      rw [escWith_cons] at h
      cases hb : keyReplace b with
      | some v =>
        exfalso
        obtain ⟨u, rfl⟩ := hhead b v hb
        simp only [hb, Option.getD_some, List.cons_append, List.cons_prefix_cons] at h
        exact hp.1 h.1.symm
      | none =>
        simp only [hb, Option.getD_none, List.cons_append, List.nil_append, List.cons_prefix_cons] at h
        rw [List.cons_prefix_cons]
        exact ⟨h.1, ih hp.2 h.2⟩

theorem key_legacy {b : Byte} {v : Bytes} (h : keyReplace b = some v) (s : Bytes) :
    legacyReplace (v ++ s) = b :: legacyReplace s := by
  unfold keyReplace at h
  repeat' split at h
  all_goals simp at h
  all_goals subst h
  all_goals subst_vars
  all_goals simp [delim, legacyReplace, legacyFrom, legacyAt, legacyTable, hasPrefix, List.isPrefixOf, List.find?]

theorem legacyReplace_key {k : Bytes} (h : ¬ b!"/%DCN" <:+: k) : legacyReplace (escWith keyReplace k) = k := by
  induction k with
  | nil => rfl
  | cons b k ih =>
    have ih := ih (fun h' => h (List.infix_cons h'))
    rw [escWith_cons]
    cases hb : keyReplace b with
    | some v => rw [Option.getD_some, key_legacy hb, ih]
    | none =>
      have hn : legacyAt (b :: escWith keyReplace k) = none := by
        unfold legacyAt
        rw [Option.map_eq_none_iff, List.find?_eq_none]
        intro e he hp
        rw [hasPrefix_iff] at hp
        have hall : ∀ e ∈ legacyTable, b!"/%DCN" <+: e.1 := by decide
        have h1 := (hall e he).trans hp
        rw [List.cons_prefix_cons] at h1
        have h2 := key_prefix (by decide) h1.2
        apply h
        rw [← h1.1]
        exact List.IsPrefix.isInfix (List.cons_prefix_cons.mpr ⟨rfl, h2⟩)
      simp only [Option.getD_none, List.cons_append, List.nil_append]
      unfold legacyReplace at ih ⊢
      rw [legacyFrom, hn]
      simp [ih]

theorem swapNibbles_inj {a b : Byte} (h : swapNibbles a = swapNibbles b) : a = b := by
  have hinv : ∀ b : Byte, swapNibbles (swapNibbles b) = b := by apply forall_byte; decide +kernel
  rw [← hinv a, h, hinv]

theorem xor_cancel (a b : Byte) : a ^^^ b ^^^ b = a := by
  rw [UInt8.xor_assoc, UInt8.xor_self, UInt8.xor_zero]

theorem xorPairs_eq {a : Byte} {l l' : Bytes} (c : Byte) (hlen : l.length = l'.length)
    (h : xorPairs (a :: l) = xorPairs ((a ^^^ c) :: l')) : l' = l.map (· ^^^ c) := by
  induction l generalizing a l' with
  | nil => cases l' with
    | nil => rfl
    | cons _ _ => simp at hlen
  | cons b l ih =>
    cases l' with
    | nil => simp at hlen
    | cons b' l' =>
      simp only [xorPairs, List.cons.injEq] at h
      have hb : b' = b ^^^ c := by
        have := h.1
        have h2 : b ^^^ a ^^^ (a ^^^ c) = b' ^^^ (a ^^^ c) ^^^ (a ^^^ c) := by rw [this]
        rw [xor_cancel] at h2
        rw [← h2, ← UInt8.xor_assoc, xor_cancel]
      subst hb
      rw [List.map_cons, ih (a := b) (l' := l') (by simpa using hlen) h.2]

theorem xorPairs_length (l : Bytes) : (xorPairs l).length = l.length - 1 := by
  induction l with
  | nil => rfl
  | cons a l ih =>
    cases l with
    | nil => rfl
    | cons b l => simp [xorPairs, ih]

end Verif.Nmdc
