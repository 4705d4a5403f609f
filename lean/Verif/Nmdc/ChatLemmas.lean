import Verif.Nmdc.Chat
import Verif.Nmdc.Wire

/-!
# Lemmas on chat messages and user commands
-/

namespace Verif.Nmdc

open Verif.Go Verif.Spec

theorem chatScan_name {n t : Bytes} (hn : ∀ b ∈ n, b ≠ c!">" ∧ b ≠ c!"\r" ∧ b ≠ c!"\n") (pos base : Nat) :
    chatScan (n ++ (b!"> " ++ t)) pos base = .ok (pos + n.length, 2) := by
  induction n generalizing pos with
  | nil =>
    have : decodeRune (c!" " :: t) = some (32, 1) := decodeRune_ascii (by decide)
    simp [chatScan, this, isSpaceRune]
  | cons b n ih =>
    have hb := hn b (by simp)
    rw [List.cons_append, chatScan, if_neg (by simp [hb.2]), if_neg hb.1, ih (fun x hx => hn x (by simp [hx]))]
    simp; omega

theorem escWith_head {tbl : Byte → Option Bytes} {s : Bytes} {c : Byte} (hne : ∀ x v, tbl x = some v → ∃ u, v = c!"&" :: u)
    (hc : c ≠ c!"&") (h : s.head? ≠ some c) : (escWith tbl s).head? ≠ some c := by
  cases s with
  | nil => simp
  | cons b s =>
    rw [escWith_cons]
    cases ht : tbl b with
    | none => simpa using h
    | some v =>
      obtain ⟨u, rfl⟩ := hne b v ht
      simpa using Ne.symm hc

theorem escString_amp {x : Byte} {v : Bytes} (h : escapeCharString x = some v) : ∃ u, v = c!"&" :: u := by
  unfold escapeCharString at h
  repeat' split at h
  all_goals simp at h
  all_goals subst h; exact ⟨_, rfl⟩

theorem escName_amp {x : Byte} {v : Bytes} (h : escapeCharName x = some v) : ∃ u, v = c!"&" :: u := by
  unfold escapeCharName at h
  repeat' split at h
  all_goals simp at h
  all_goals subst h; exact ⟨_, rfl⟩

theorem marshalPath_ok {enc : Codec} {ps ws : List Bytes} (h : marshalPath enc ps = .ok ws) :
    All2 (fun p w => Str.marshal enc p = .ok w) ps ws := by
  induction ps generalizing ws with
  | nil => simp [marshalPath] at h; subst h; exact .nil
  | cons p ps ih =>
    simp only [marshalPath, Res.bind_eq_ok, Res.pure_eq, Res.ok.injEq] at h
    obtain ⟨w, hw, ws', hws, rfl⟩ := h
    exact .cons hw (ih hws)

theorem unmarshalPath_ok [HtmlEntities] {dec : Codec} {ps ws : List Bytes} (hne : ∀ w ∈ ws, w ≠ [])
    (h : All2 (fun p w => Str.unmarshal dec w = .ok p) ps ws) : unmarshalPath dec ws = .ok ps := by
  induction h with
  | nil => rfl
  | cons h hs ih =>
    rename_i p w ps ws
    simp [unmarshalPath, hne w (by simp), h, ih (fun w hw => hne w (by simp [hw]))]

/-- A text that does not end with the encoding of a white space character. -/
theorem noSpaceLast_of {a w : Bytes} {c : Byte} (hc : c.toNat < 0x80) (hs : isSpaceRune c.toNat = false)
    (h : ∀ r, isSpaceRune r = true → ¬ utf8 r <:+ w) : NoSpaceLast (a ++ c :: w) := by
  unfold NoSpaceLast spaceLast
  rw [Option.map_eq_none_iff, List.find?_eq_none]
  intro r hr hp
  rw [hasPrefix_iff, List.reverse_prefix] at hp
  have hall : ∀ r ∈ spaceRunes, ∀ b ∈ utf8 r, b.toNat < 0x80 → isSpaceRune b.toNat = true := by decide +kernel
  have hcr : c ∉ utf8 r := by
    intro hm
    rw [hall r hr c hm hc] at hs; cases hs
  refine h r ((isSpaceRune_iff r).mpr hr) ?_
  have h2 : w <:+ a ++ c :: w := ⟨a ++ [c], by simp⟩
  by_cases hl : (utf8 r).length ≤ w.length
  · exact List.suffix_of_suffix_length_le hp h2 hl
  · exfalso
    have h3 : c :: w <:+ a ++ c :: w := ⟨a, rfl⟩
    have : c :: w <:+ utf8 r := List.suffix_of_suffix_length_le h3 hp (by simp; omega)
    exact hcr (this.subset (by simp))

end Verif.Nmdc
