import Verif.Spec.NmdcReuse
import Verif.Props.NmdcReads
import Verif.Props.NmdcMessages

/-!
# What is left of the previous value of an NMDC message (C97)
-/

namespace Verif.Props.NmdcReuse

open Verif.Go Verif.Nmdc Verif.Tiger Verif.Spec

/-! ## Cutting -/

theorem after_some {d : Bytes} {c : Byte} {i : Nat} (h : indexByte d c = some i) :
    sliceFrom d (i + 1) = .ok (NmdcReuse.after c d) ∧ d.take i = d.takeWhile (· ≠ c) ∧
      split d c = d.take i :: split (NmdcReuse.after c d) c := by
  obtain ⟨a, b, rfl, ha, rfl⟩ := indexByte_some h
  have h1 : (a ++ c :: b).dropWhile (· ≠ c) = c :: b := by
    rw [List.dropWhile_append_of_pos (fun x hx => by simp; rintro rfl; exact ha hx)]; simp
  have h2 : (a ++ c :: b).takeWhile (· ≠ c) = a := by
    rw [List.takeWhile_append_of_pos (fun x hx => by simp; rintro rfl; exact ha hx)]; simp
  have h3 : NmdcReuse.after c (a ++ c :: b) = b := by unfold NmdcReuse.after; rw [h1]; rfl
  refine ⟨?_, ?_, ?_⟩
  · rw [h3, sliceFrom_ok (by simp)]
    simp
  · rw [h2]; simp
  · rw [h3, split_append ha]; simp

theorem bind_id {α : Type} (x : Res α) (f : α → α) (h : ∀ m, f m = m) : x = (x >>= fun m => pure (f m)) := by
  cases x <;> simp [h]

section
variable [HtmlEntities]

theorem chat_eq (dec : Codec) (u : ChatMessage) (d : Bytes) :
    u.unmarshal dec d = (do let m ← ({} : ChatMessage).unmarshal dec d; pure (NmdcReuse.chat u d m)) := by
  unfold ChatMessage.unmarshal NmdcReuse.chat
  cases d with
  | nil => cases Str.unmarshal dec [] <;> rfl
  | cons c d =>
    by_cases hc : c = c!"<"
    · subst hc
      simp only [if_true, List.head?_cons]
      exact bind_id _ _ (fun _ => rfl)
    · simp only [hc, if_false, List.head?_cons, Option.some.injEq]
      rcases Str.unmarshal dec (c :: d) with t | e | _ <;> rfl

theorem userCommand_eq (dec : Codec) (u : UserCommand) (d : Bytes) :
    u.unmarshal dec d = (do let m ← ({} : UserCommand).unmarshal dec d; pure (NmdcReuse.userCommand u d m)) := by
  unfold UserCommand.unmarshal NmdcReuse.userCommand
  rw [NmdcReads.splitMax_eq]
  have hne := split_ne_nil (trimSpaceU d) c!" "
  generalize split (trimSpaceU d) c!" " = l at *
  match l, hne with
  | [a], _ => rfl
  | [a, b], _ =>
    simp only [List.take, List.length, List.cons_append, List.nil_append, if_true, Nat.reduceAdd, Nat.le_refl]
    rcases atoiTrim a with t | e | _
    · simp only [Res.ok_bind]
      rcases atoiTrim (b.takeWhile (fun b => c!"0" ≤ b && b ≤ c!"9")) with t | e | _ <;> rfl
    · rfl
    · rfl
  | a :: b :: c :: l, _ =>
    have h2 : ¬ (a :: b :: c :: l).length ≤ 2 := by simp
    simp only [h2, if_false, List.take, List.cons_append, List.nil_append]
    generalize join _ c!" " = val
    rcases atoiTrim a with t | e | _
    · simp only [Res.ok_bind]
      rcases atoiTrim (b.takeWhile (fun b => c!"0" ≤ b && b ≤ c!"9")) with t | e | _
      · simp only [Res.ok_bind]
        cases indexByte val c!"$" with
        | none => rfl
        | some i =>
          simp only
          split
          · rfl
          · rcases unmarshalPath dec (split (trimRight (val.take i) (· = c!" ")) c!"\\") with ps | e | _
            · simp only [Res.ok_bind]
              rcases sliceFrom val (i + 1) with cmd | e | _
              · simp only [Res.ok_bind]
                rcases Str.unmarshal dec cmd with s | e | _ <;> rfl
              · rfl
              · rfl
            · rfl
            · rfl
      · rfl
      · rfl
    · rfl
    · rfl

theorem connectToMe_eq (dec : Codec) (u : ConnectToMe) (d : Bytes) :
    u.unmarshal dec d = (do let m ← ({} : ConnectToMe).unmarshal dec d; pure (NmdcReuse.connectToMe u d m)) := by
  unfold ConnectToMe.unmarshal NmdcReuse.connectToMe
  cases hi : indexByte d c!" " with
  | none => rfl
  | some i =>
    obtain ⟨h1, h2, h3⟩ := after_some hi
    simp only [h1, h3]
    rcases Name.unmarshal dec (d.take i) with targ | e | _
    · simp only [Res.ok_bind]
      cases hj : indexByte (NmdcReuse.after c!" " d) c!" " with
      | none =>
        rw [indexByte_none] at hj
        simp only [split_of_not_mem hj, Res.pure_eq, Res.ok_bind]
        simp
      | some j =>
        obtain ⟨h4, h5, h6⟩ := after_some hj
        have hne := split_ne_nil (NmdcReuse.after c!" " (NmdcReuse.after c!" " d)) c!" "
        simp only [h4, h6, Res.ok_bind]
        rcases Name.unmarshal dec (NmdcReuse.after c!" " (NmdcReuse.after c!" " d)) with n | e | _
        · have : (split (NmdcReuse.after c!" " (NmdcReuse.after c!" " d)) c!" ").length ≠ 0 := by simpa using hne
          simp only [Res.ok_bind, Res.pure_eq, List.length_cons]
          rw [if_neg (by omega)]
          simp
        · rfl
        · rfl
    · rfl
    · rfl

theorem errMsg_eq (dec : Codec) (u : Option Bytes) (d : Bytes) :
    ErrMsg.unmarshal dec u d = (do let m ← ErrMsg.unmarshal dec none d; pure (NmdcReuse.errMsg u m)) := by
  unfold ErrMsg.unmarshal NmdcReuse.errMsg
  rcases Str.unmarshal dec d with s | e | _
  · by_cases hs : s = [] <;> simp [hs]
  · rfl
  · rfl

omit [HtmlEntities] in
theorem adcGetFlags_eq (u : ADCGet) (fs : List Bytes) (m : ADCGet) :
    adcGetFlags fs (NmdcReuse.adcGet u m) = (do let r ← adcGetFlags fs m; pure (NmdcReuse.adcGet u r)) := by
  induction fs generalizing m with
  | nil => rfl
  | cons f fs ih =>
    unfold adcGetFlags
    split
    · rw [← ih]; rfl
    · split
      · rcases sliceFrom f 2 with d | e | _
        · simp only [Res.ok_bind]
          rcases mapErr (parseUin64Trim d) (.other 40) with n | e | _
          · simp only [Res.ok_bind]; rw [← ih]; rfl
          · rfl
          · rfl
        · rfl
        · rfl
      · exact ih m

theorem adcGet_eq (dec : Codec) (u : ADCGet) (d : Bytes) :
    u.unmarshal dec d = (do let m ← ({} : ADCGet).unmarshal dec d; pure (NmdcReuse.adcGet u m)) := by
  unfold ADCGet.unmarshal
  rcases cutSpace d with ⟨f, d⟩ | e | _
  case err => rfl
  case panic => rfl
  simp only [Res.ok_bind]
  rcases Str.unmarshal dec f with ct | e | _
  case err => rfl
  case panic => rfl
  simp only [Res.ok_bind]
  rcases cutSpace d with ⟨f, d⟩ | e | _
  case err => rfl
  case panic => rfl
  simp only [Res.ok_bind]
  rcases mapErr (Str.unmarshal dec f) (.other 42) with ident | e | _
  case err => rfl
  case panic => rfl
  simp only [Res.ok_bind]
  rcases cutSpace d with ⟨f, d⟩ | e | _
  case err => rfl
  case panic => rfl
  simp only [Res.ok_bind]
  rcases mapErr (parseUin64Trim f) (.other 43) with start | e | _
  case err => rfl
  case panic => rfl
  simp only [Res.ok_bind]
  rcases cutSpaceOpt d with ⟨f, d⟩ | e | _
  case err => rfl
  case panic => rfl
  simp only [Res.ok_bind]
  have h : ∀ len, adcGetFlags (split d c!" ") { u with contentType := ct, identifier := ident, start := start, length := len } =
      adcGetFlags (split d c!" ") { contentType := ct, identifier := ident, start := start, length := len } >>=
        fun m => pure (NmdcReuse.adcGet u m) := by
    intro len; rw [← adcGetFlags_eq]; simp [NmdcReuse.adcGet]
  split
  · exact h _
  · rcases mapErr (parseUin64Trim f) (.other 44) with n | e | _
    · exact h _
    · rfl
    · rfl

theorem adcSnd_eq (dec : Codec) (u : ADCSnd) (d : Bytes) :
    u.unmarshal dec d = (do let m ← ({} : ADCSnd).unmarshal dec d; pure (NmdcReuse.adcSnd u m)) := by
  unfold ADCSnd.unmarshal
  rcases cutSpace d with ⟨f, d⟩ | e | _
  case err => rfl
  case panic => rfl
  simp only [Res.ok_bind]
  rcases Str.unmarshal dec f with ct | e | _
  case err => rfl
  case panic => rfl
  simp only [Res.ok_bind]
  rcases cutSpace d with ⟨f, d⟩ | e | _
  case err => rfl
  case panic => rfl
  simp only [Res.ok_bind]
  rcases mapErr (Str.unmarshal dec f) (.other 42) with ident | e | _
  case err => rfl
  case panic => rfl
  simp only [Res.ok_bind]
  rcases cutSpace d with ⟨f, d⟩ | e | _
  case err => rfl
  case panic => rfl
  simp only [Res.ok_bind]
  rcases mapErr (parseUin64Trim f) (.other 43) with start | e | _
  case err => rfl
  case panic => rfl
  simp only [Res.ok_bind]
  rcases cutSpaceOpt d with ⟨f, d⟩ | e | _
  case err => rfl
  case panic => rfl
  simp only [Res.ok_bind]
  rcases mapErr (parseUin64Trim f) (.other 44) with len | e | _
  case err => rfl
  case panic => rfl
  simp only [Res.ok_bind]
  split
  · split
    · rfl
    · simp [NmdcReuse.adcSnd]
  · simp [NmdcReuse.adcSnd]

/-! ## Hubs -/

/-- The state after `j` fields. -/
def hubMix (n j : Nat) (v : Bool) (u m : HubINFO) : HubINFO :=
  { name := if 0 < j then m.name else u.name
    host := if 1 < j then m.host else u.host
    desc := if 2 < j then m.desc else u.desc
    i1 := if 3 < j then m.i1 else u.i1
    i2 := if 4 < j then m.i2 else u.i2
    i3 := if 5 < j then m.i3 else u.i3
    i4 := if 6 < j then m.i4 else u.i4
    soft := { name := if 7 < j then m.soft.name else u.soft.name, version := if v then m.soft.version else u.soft.version }
    owner := if 8 < j then m.owner else u.owner
    state := if 9 < j then m.state else u.state
    encoding := if 10 < j ∧ n < 12 then m.encoding else u.encoding }

omit [HtmlEntities] in
theorem soft_eq (u m : Software) (v : Bool) (hv : v = false) (f : Bytes) :
    Software.parse { name := u.name, version := if v then m.version else u.version } f =
      { name := (m.parse f).name, version := if c!" " ∈ f then (m.parse f).version else u.version } := by
  unfold Software.parse
  cases h : lastIndexByte f c!" " with
  | none => rw [lastIndexByte_none] at h; simp [h, hv]
  | some i =>
    have : c!" " ∈ f := by
      apply Classical.byContradiction
      intro hc
      rw [← lastIndexByte_none] at hc
      simp [hc] at h
    simp [this]

theorem hubField_eq (dec : Codec) (n i : Nat) (v : Bool) (u m : HubINFO) (f : Bytes) (hv : i ≤ 7 → v = false) :
    HubINFO.field dec n i (hubMix n i v u m) f =
      (do let r ← HubINFO.field dec n i m f; pure (hubMix n (i + 1) (if i = 7 then decide (c!" " ∈ f) else v) u r)) := by
  match i with
  | 0 => simp only [HubINFO.field]; rcases Str.unmarshal dec f with s | e | _ <;> simp [hubMix, hv]
  | 1 => simp [HubINFO.field, hubMix, hv]
  | 2 => simp only [HubINFO.field]; rcases Str.unmarshal dec f with s | e | _ <;> simp [hubMix, hv]
  | 3 => simp only [HubINFO.field]; rcases mapErr (atoiTrim f) (.other 50) with s | e | _ <;> simp [hubMix, hv]
  | 4 => simp only [HubINFO.field]; rcases mapErr (atoiTrim f) (.other 50) with s | e | _ <;> simp [hubMix, hv]
  | 5 => simp only [HubINFO.field]; rcases mapErr (atoiTrim f) (.other 50) with s | e | _ <;> simp [hubMix, hv]
  | 6 => simp only [HubINFO.field]; rcases mapErr (atoiTrim f) (.other 50) with s | e | _ <;> simp [hubMix, hv]
  | 7 =>
    simp only [HubINFO.field, Res.pure_eq, Res.ok_bind]
    have := soft_eq u.soft m.soft v (hv (Nat.le_refl 7)) f
    simp only [hubMix, Nat.lt_irrefl, if_false, this]
    simp
  | 8 => simp only [HubINFO.field]; rcases Str.unmarshal dec f with s | e | _ <;> simp [hubMix]
  | 9 => simp only [HubINFO.field]; rcases Str.unmarshal dec f with s | e | _ <;> simp [hubMix]
  | 10 => by_cases hn : n < 12 <;> simp [HubINFO.field, hubMix, hn]
  | i + 11 =>
    have h1 : ∀ m : HubINFO, HubINFO.field dec n (i + 11) m f = .ok m := fun _ => rfl
    rw [h1, h1]
    simp [hubMix, show ∀ k, k ≤ 10 → (k < i + 11) from fun _ _ => by omega, show ∀ k, k ≤ 10 → (k < i + 11 + 1) from fun _ _ => by omega]

theorem hubFields_eq (dec : Codec) (n i : Nat) (v : Bool) (u m : HubINFO) (fs : List Bytes) (hv : i ≤ 7 → v = false) :
    HubINFO.fields dec n i (hubMix n i v u m) fs =
      (do let r ← HubINFO.fields dec n i m fs
          pure (hubMix n (i + fs.length) (if i ≤ 7 then decide (c!" " ∈ fs.getD (7 - i) []) else v) u r)) := by
  induction fs generalizing i v m with
  | nil =>
    simp only [HubINFO.fields, Res.pure_eq, Res.ok_bind, List.length_nil, Nat.add_zero]
    split
    · rename_i h; simp [hv h]
    · rfl
  | cons f fs ih =>
    simp only [HubINFO.fields]
    rw [hubField_eq dec n i v u m f hv]
    rcases HubINFO.field dec n i m f with m' | e | _
    case err => rfl
    case panic => rfl
    simp only [Res.ok_bind, Res.pure_eq]
    rw [ih (i + 1) _ m' (by intro h; rw [if_neg (by omega)]; exact hv (by omega))]
    have : (if i + 1 ≤ 7 then decide (c!" " ∈ fs.getD (7 - (i + 1)) []) else if i = 7 then decide (c!" " ∈ f) else v) =
        if i ≤ 7 then decide (c!" " ∈ (f :: fs).getD (7 - i) []) else v := by
      by_cases h : i + 1 ≤ 7
      · rw [if_pos h, if_pos (by omega), show 7 - i = (7 - (i + 1)) + 1 by omega]; simp
      · by_cases h7 : i = 7
        · subst h7; simp
        · rw [if_neg h, if_neg h7, if_neg (by omega)]
    rw [this, List.length_cons, show i + (fs.length + 1) = i + 1 + fs.length by omega]
    rfl

theorem hubINFO_eq (dec : Codec) (u : HubINFO) (d : Bytes) :
    u.unmarshal dec d = (do let m ← ({} : HubINFO).unmarshal dec d; pure (NmdcReuse.hubINFO u d m)) := by
  unfold HubINFO.unmarshal
  have h0 : u = hubMix (splitMax d c!"$" 13).length 0 false u {} := by simp [hubMix]
  conv => lhs; rw [h0]
  simp only
  rw [hubFields_eq _ _ _ _ _ _ _ (fun _ => rfl)]
  congr 1
  funext m
  have hl := NmdcReads.splitMax_eq d c!"$" 12
  have hne := split_ne_nil d c!"$"
  have hlen : (splitMax d c!"$" 13).length = min (split d c!"$").length 13 := by
    rw [hl]; split <;> simp <;> omega
  have h7 : (splitMax d c!"$" 13).getD 7 [] = (split d c!"$").getD 7 [] := by
    rw [hl]
    generalize split d c!"$" = l
    by_cases h : l.length ≤ 12
    · rw [if_pos h]; simp [List.take_of_length_le h]
    · rw [if_neg h]
      simp only [List.getD_eq_getElem?_getD]
      rw [List.getElem?_append_left (by simp; omega)]
      simp
  have hpos : 0 < (split d c!"$").length := by
    cases h : split d c!"$" with
    | nil => exact absurd h hne
    | cons _ _ => simp
  have he : ∀ k, (10 < min k 13 ∧ min k 13 < 12) ↔ k = 11 := by omega
  simp only [Nat.zero_add, Nat.sub_zero, if_pos (Nat.zero_le 7), h7, hlen, hubMix, NmdcReuse.hubINFO, he]
  simp [Nat.lt_min, hpos]

/-! ## Searches -/

omit [HtmlEntities] in
theorem hub_prefix {d : Bytes} {i : Nat} (h : indexByte d c!" " = some i) : hasPrefix (d.take i) b!"Hub:" = true ↔ b!"Hub:" <+: d := by
  obtain ⟨a, b, rfl, ha, rfl⟩ := indexByte_some h
  rw [hasPrefix_iff, List.take_left']
  · constructor
    · rintro ⟨t, rfl⟩; exact ⟨t ++ c!" " :: b, by simp⟩
    · intro hp
      rcases Nat.lt_or_ge a.length 4 with hl | hl
      · exfalso
        obtain ⟨t, ht⟩ := hp
        have h1 := congrArg (fun l => l[a.length]?) ht
        simp only [List.getElem?_append_right (Nat.le_refl a.length), Nat.sub_self, List.getElem?_cons_zero] at h1
        rw [List.getElem?_append_left (by simpa using hl)] at h1
        have : a.length = 0 ∨ a.length = 1 ∨ a.length = 2 ∨ a.length = 3 := by omega
        rcases this with h | h | h | h <;> rw [h] at h1 <;> exact absurd h1 (by decide)
      · exact List.prefix_of_prefix_length_le hp (List.prefix_append a _) (by simpa using hl)
  · rfl

theorem searchString_eq (dec : Codec) (x y : Search) (d : Bytes) :
    Search.unmarshalString dec x d = (do
      let r ← Search.unmarshalString dec y d
      pure { r with
        address := x.address
        user := x.user
        size := if (split d c!"?")[2]? = some [] then x.size else r.size
        pattern := if r.dataType = 9 then x.pattern else r.pattern
        tth := if r.dataType = 9 then r.tth else x.tth }) := by
  unfold Search.unmarshalString
  cases hs : splitMax d c!"?" 5 with
  | nil => rfl
  | cons f0 l =>
    match l, hs with
    | [], _ => rfl
    | [_], _ => rfl
    | [_, _], _ => rfl
    | [_, _, _], _ => rfl
    | _ :: _ :: _ :: _ :: _ :: _, _ => rfl
    | [f1, f2, f3, f4], hs =>
      simp only
      have h2 : (split d c!"?")[2]? = some f2 := by
        have := congrArg (·[2]?) hs
        rw [NmdcReads.splitMax_eq] at this
        simp only [List.getElem?_cons_succ, List.getElem?_cons_zero] at this
        rcases Nat.lt_or_ge 2 (split d c!"?").length with hl | hl
        · rw [List.getElem?_append_left (by simp; omega)] at this
          simpa [List.getElem?_take] using this
        · have hlen := congrArg List.length hs
          rw [NmdcReads.splitMax_eq, if_pos (by omega)] at hlen
          simp at hlen; omega
      rw [h2]
      rcases boolFlag f0 with restricted | e | _
      case err => rfl
      case panic => rfl
      simp only [Res.ok_bind]
      rcases boolFlag f1 with isMax | e | _
      case err => rfl
      case panic => rfl
      simp only [Res.ok_bind]
      have hsz : ∀ o : Nat, Search.sizeField o f2 = (do
          let (a, b) ← Search.sizeField y.size f2; pure (a, if f2 = [] then o else b)) := by
        intro o
        unfold Search.sizeField
        cases f2 with
        | nil => rfl
        | cons c t =>
          simp only [reduceCtorEq, if_false]
          split
          · rcases parseUin64Trim t with n | e | _ <;> rfl
          · rcases parseUin64Trim (c :: t) with n | e | _ <;> rfl
      rw [hsz x.size]
      rcases Search.sizeField y.size f2 with ⟨reset, size⟩ | e | _
      case err => rfl
      case panic => rfl
      simp only [Res.ok_bind, Res.pure_eq]
      rcases parseUin64Trim f3 with typ | e | _
      case err => rfl
      case panic => rfl
      simp only [Res.ok_bind]
      unfold Search.target
      by_cases ht : typ = 9
      · simp only [ht, if_true]
        split
        · rcases sliceFrom f4 4 with hash | e | _
          case err => rfl
          case panic => rfl
          simp only [Res.ok_bind]
          rcases Hash.unmarshalBase32 (if hash.getLast? = some c!"$" then hash.dropLast else hash) with h | e | _
          case err => rfl
          case panic => rfl
          simp
        · rfl
      · simp only [ht, if_false]
        rcases Str.unmarshal dec f4 with t | e | _
        case err => rfl
        case panic => rfl
        simp [ht]

theorem searchString_who (dec : Codec) {y r : Search} {d : Bytes} (h : Search.unmarshalString dec y d = .ok r) :
    r.address = y.address ∧ r.user = y.user := by
  have := searchString_eq dec y y d
  rw [h] at this
  simp only [Res.ok_bind, Res.pure_eq, Res.ok.injEq] at this
  have h1 := congrArg Search.address this
  have h2 := congrArg Search.user this
  exact ⟨h1, h2⟩

theorem search_eq (dec : Codec) (u : Search) (d : Bytes) :
    u.unmarshal dec d = (do let m ← ({} : Search).unmarshal dec d; pure (NmdcReuse.search u d m)) := by
  unfold Search.unmarshal NmdcReuse.search
  cases hi : indexByte d c!" " with
  | none => rfl
  | some i =>
    obtain ⟨h1, h2, h3⟩ := after_some hi
    simp only [h1, Res.ok_bind, ← hub_prefix hi]
    split
    · rename_i hp
      rcases sliceFrom (d.take i) 4 with v | e | _
      · simp only [Res.ok_bind]
        rcases Name.unmarshal dec v with n | e | _
        · simp only [Res.ok_bind]
          rw [searchString_eq dec { u with user := n } { user := n }]
          cases hr : Search.unmarshalString dec { user := n } (NmdcReuse.after c!" " d) with
          | ok r => obtain ⟨-, h4⟩ := searchString_who dec hr; simp [h4]
          | err e => rfl
          | panic => rfl
        · rfl
        · rfl
      · rfl
      · rfl
    · rw [searchString_eq dec { u with address := d.take i } { address := d.take i }]
      cases hr : Search.unmarshalString dec { address := d.take i } (NmdcReuse.after c!" " d) with
      | ok r => obtain ⟨h4, -⟩ := searchString_who dec hr; simp [h4]
      | err e => rfl
      | panic => rfl

/-! ## Search results -/

theorem source_eq (dec : Codec) (x y : SR) (d : Bytes) :
    SR.parseSource dec x d = (do
      let (hub, tth, rest) ← SR.parseSource dec y d
      pure (if hasPrefix d b!"TTH:" then x.hubName else hub, if hasPrefix d b!"TTH:" then tth else x.tth, rest)) := by
  unfold SR.parseSource
  split
  · rcases sliceFrom d 4 with d' | e | _
    case err => rfl
    case panic => rfl
    simp only [Res.ok_bind]
    split
    · rfl
    · rcases at' d' 39 with a | e | _
      case err => rfl
      case panic => rfl
      simp only [Res.ok_bind]
      rcases at' d' 40 with b | e | _
      case err => rfl
      case panic => rfl
      simp only [Res.ok_bind]
      split
      · rfl
      · rcases sliceFrom d' 41 with r | e | _
        case err => rfl
        case panic => rfl
        simp only [Res.ok_bind]
        rcases Hash.unmarshalBase32 (d'.take 39) with h | e | _ <;> rfl
  · cases index d b!" (" with
    | none => rfl
    | some i =>
      simp only
      rcases sliceFrom d (i + 2) with r | e | _
      case err => rfl
      case panic => rfl
      simp only [Res.ok_bind]
      rcases Str.unmarshal dec (d.take i) with s | e | _ <;> rfl

/-- What a result of `parseSource` for a fresh message says. -/
theorem source_ok (dec : Codec) {y : SR} {d hub rest : Bytes} {tth : Option Hash} (hy : y.tth = none)
    (h : SR.parseSource dec y d = .ok (hub, tth, rest)) :
    tth.isSome = hasPrefix d b!"TTH:" ∧ rest = NmdcReuse.srAddress d tth.isSome := by
  unfold SR.parseSource at h
  unfold NmdcReuse.srAddress
  by_cases hp : hasPrefix d b!"TTH:" = true
  · rw [if_pos hp] at h
    obtain ⟨d', h1, h⟩ := Res.bind_eq_ok.mp h
    split at h
    · cases h
    · rename_i hl
      obtain ⟨a, h2, h⟩ := Res.bind_eq_ok.mp h
      obtain ⟨b, h3, h⟩ := Res.bind_eq_ok.mp h
      split at h
      · cases h
      · obtain ⟨r, h4, h⟩ := Res.bind_eq_ok.mp h
        obtain ⟨x, h5, h⟩ := Res.bind_eq_ok.mp h
        simp only [Res.ok.injEq, Prod.mk.injEq] at h
        obtain ⟨-, rfl, rfl⟩ := h
        unfold sliceFrom at h1 h4
        split at h1 <;> simp at h1
        subst h1
        split at h4 <;> simp at h4
        subst h4
        simp [hp]
  · rw [if_neg hp] at h
    cases hi : index d b!" (" with
    | none => rw [hi] at h; cases h
    | some i =>
      rw [hi] at h
      obtain ⟨r, h4, h⟩ := Res.bind_eq_ok.mp h
      obtain ⟨x, h5, h⟩ := Res.bind_eq_ok.mp h
      simp only [Res.ok.injEq, Prod.mk.injEq] at h
      obtain ⟨-, rfl, rfl⟩ := h
      unfold sliceFrom at h4
      split at h4 <;> simp at h4
      subst h4
      simp [hp, hy]

theorem target_eq (dec : Codec) (x y : SR) (d : Bytes) :
    SR.parseTarget dec x d = (do
      let (addr, dst) ← SR.parseTarget dec y d
      pure (addr, if NmdcReuse.after c!")" d = [] then x.dst else dst)) := by
  unfold SR.parseTarget
  cases hi : indexByte d c!")" with
  | none => rfl
  | some i =>
    obtain ⟨h1, -, -⟩ := after_some hi
    simp only [h1, Res.ok_bind]
    cases NmdcReuse.after c!")" d with
    | nil => rfl
    | cons c t =>
      simp only [reduceCtorEq, if_false]
      split
      · rfl
      · rcases Name.unmarshal dec t with n | e | _ <;> rfl

/-- The result from the path on. -/
theorem tail_eq (dec : Codec) (u : SR) (n : Bytes) (b : Bool) (k : Nat) (path slots d : Bytes) :
    SR.tail dec { u with src := n, isDir := b, size := k } path slots d = (do
      let r ← SR.tail dec { src := n, isDir := b, size := k } path slots d
      pure { r with
        hubName := if r.tth.isSome then u.hubName else r.hubName
        tth := r.tth.or u.tth
        dst := if NmdcReuse.after c!")" (NmdcReuse.srAddress d r.tth.isSome) = [] then u.dst else r.dst }) := by
  unfold SR.tail
  rcases Str.unmarshal dec path with p | e | _
  case err => rfl
  case panic => rfl
  simp only [Res.ok_bind]
  rcases SR.parseSlots slots with ⟨f, t⟩ | e | _
  case err => rfl
  case panic => rfl
  simp only [Res.ok_bind]
  rw [source_eq dec _ { src := n, isDir := b, size := k }]
  cases hs : SR.parseSource dec { src := n, isDir := b, size := k } d with
  | err e => rfl
  | panic => rfl
  | ok r =>
    obtain ⟨hub, tth, rest⟩ := r
    obtain ⟨h1, h2⟩ := source_ok dec rfl hs
    simp only [Res.ok_bind, Res.pure_eq]
    rw [target_eq dec _ { src := n, isDir := b, size := k }]
    rcases SR.parseTarget dec { src := n, isDir := b, size := k } rest with ⟨addr, dst⟩ | e | _
    case err => rfl
    case panic => rfl
    simp only [Res.ok_bind, Res.pure_eq]
    rw [← h1, ← h2]
    cases tth <;> simp

theorem tail_dir (dec : Codec) {m r : SR} {path slots d : Bytes} (h : SR.tail dec m path slots d = .ok r) : r.isDir = m.isDir := by
  unfold SR.tail at h
  obtain ⟨p, -, h⟩ := Res.bind_eq_ok.mp h
  obtain ⟨⟨f, t⟩, -, h⟩ := Res.bind_eq_ok.mp h
  obtain ⟨⟨a, b, c⟩, -, h⟩ := Res.bind_eq_ok.mp h
  obtain ⟨⟨a', b'⟩, -, h⟩ := Res.bind_eq_ok.mp h
  simp only [Res.pure_eq, Res.ok.injEq] at h
  rw [← h]

theorem sr_eq (dec : Codec) (u : SR) (d : Bytes) :
    u.unmarshal dec d = (do let m ← ({} : SR).unmarshal dec d; pure (NmdcReuse.sr u d m)) := by
  unfold SR.unmarshal NmdcReuse.sr NmdcReuse.srHub
  cases hi : indexByte d c!" " with
  | none => rfl
  | some i =>
    obtain ⟨h1, h2, h3⟩ := after_some hi
    simp only [h1, Res.ok_bind]
    rcases Name.unmarshal dec (d.take i) with n | e | _
    case err => rfl
    case panic => rfl
    simp only [Res.ok_bind]
    cases hj : indexByte (NmdcReuse.after c!" " d) 5 with
    | none => rfl
    | some j =>
      obtain ⟨h4, -, -⟩ := after_some hj
      simp only [h4, Res.ok_bind]
      generalize NmdcReuse.after 5 (NmdcReuse.after c!" " d) = d1
      cases SR.dirSplit ((NmdcReuse.after c!" " d).take j) with
      | some ps =>
        obtain ⟨path, slots⟩ := ps
        simp only
        rw [tail_eq]
        cases hr : SR.tail dec { src := n, isDir := true, size := 0 } path slots d1 with
        | ok r => have := tail_dir dec hr; simp_all
        | err e => rfl
        | panic => rfl
      | none =>
        simp only
        unfold SR.fileSplit
        cases hk : indexByte d1 5 with
        | none => rfl
        | some k =>
          obtain ⟨h5, -, -⟩ := after_some hk
          simp only [h5, Res.ok_bind]
          cases indexByte (d1.take k) c!" " with
          | none => rfl
          | some l =>
            simp only
            rcases parseUin64Trim ((d1.take k).take l) with size | e | _
            case err => rfl
            case panic => rfl
            simp only [Res.ok_bind]
            rcases sliceFrom (d1.take k) (l + 1) with slots | e | _
            case err => rfl
            case panic => rfl
            simp only [Res.ok_bind]
            rw [tail_eq]
            cases hr : SR.tail dec { src := n, isDir := false, size := size } ((NmdcReuse.after c!" " d).take j) slots
                (NmdcReuse.after 5 d1) with
            | ok r => have := tail_dir dec hr; simp_all
            | err e => rfl
            | panic => rfl

/-! ## Users -/

/-- The state within the tag; `v`, `h`, `r` and `s` tell which keys have been seen. -/
def tagMix (v h r s : Bool) (u m : MyINFO) : MyINFO :=
  { u with
    mode := m.mode
    extra := m.extra
    client := { name := u.client.name, version := if v then m.client.version else u.client.version }
    hubsNormal := if h then m.hubsNormal else u.hubsNormal
    hubsRegistered := if r then m.hubsRegistered else u.hubsRegistered
    hubsOperator := if r then m.hubsOperator else u.hubsOperator
    slots := if s then m.slots else u.slots }

omit [HtmlEntities] in
theorem upper_V : ∀ k : Byte, (upperKey k = c!"V" ↔ k = c!"V" ∨ k = c!"v") := by apply forall_byte; decide +kernel
omit [HtmlEntities] in
theorem upper_H : ∀ k : Byte, (upperKey k = c!"H" ↔ k = c!"H" ∨ k = c!"h") := by apply forall_byte; decide +kernel
omit [HtmlEntities] in
theorem upper_S : ∀ k : Byte, (upperKey k = c!"S" ↔ k = c!"S" ∨ k = c!"s") := by apply forall_byte; decide +kernel

omit [HtmlEntities] in
theorem keyed_one (a b k : Byte) (val : Bytes) :
    NmdcReuse.keyed a b (k :: c!":" :: val) = (decide (k = a) || decide (k = b)) := by simp [NmdcReuse.keyed]

omit [HtmlEntities] in
theorem hubs_eq (v h r s : Bool) (u m : MyINFO) (val : Bytes) :
    (tagMix v h r s u m).hubs val = (do let m' ← m.hubs val; pure (tagMix v true (r || decide (c!"/" ∈ val)) s u m')) := by
  unfold MyINFO.hubs
  by_cases hv : val.length = 0
  · have : val = [] := by simpa using hv
    subst this; simp [tagMix]
  · simp only [if_neg hv]
    cases hi : indexByte val c!"/" with
    | none =>
      have hn := indexByte_none.mp hi
      simp only [Option.isNone_none, if_true]
      rcases mapErr (atoiTrim val) (.other 80) with a | e | _ <;> simp [tagMix, hn]
    | some i =>
      have hm : c!"/" ∈ val := by
        apply Classical.byContradiction; intro hc; rw [← indexByte_none] at hc; simp [hc] at hi
      simp only [Option.isNone_some, Bool.false_eq_true, if_false]
      cases hsp : splitN val c!"/" 3 with
      | none => rfl
      | some l =>
        match l with
        | [] => rfl
        | [_] => rfl
        | [_, _] => rfl
        | _ :: _ :: _ :: _ :: _ => rfl
        | [x, y, z] =>
          simp only
          rcases mapErr (atoiTrim x) (.other 80) with a | e | _
          case err => rfl
          case panic => rfl
          simp only [Res.ok_bind]
          rcases mapErr (atoiTrim y) (.other 81) with b | e | _
          case err => rfl
          case panic => rfl
          simp only [Res.ok_bind]
          rcases mapErr (atoiTrim z) (.other 82) with c | e | _ <;> simp [tagMix, hm]

omit [HtmlEntities] in
theorem letter_eq (v h r s : Bool) (u m : MyINFO) (k : Byte) (val : Bytes) :
    (tagMix v h r s u m).letter (upperKey k) val = (do
      let m' ← m.letter (upperKey k) val
      pure (tagMix (v || NmdcReuse.keyed c!"V" c!"v" (k :: c!":" :: val)) (h || NmdcReuse.keyed c!"H" c!"h" (k :: c!":" :: val))
        (r || (NmdcReuse.keyed c!"H" c!"h" (k :: c!":" :: val) && decide (c!"/" ∈ k :: c!":" :: val)))
        (s || NmdcReuse.keyed c!"S" c!"s" (k :: c!":" :: val)) u m')) := by
  simp only [keyed_one]
  have e1 : (decide (k = c!"V") || decide (k = c!"v")) = decide (upperKey k = c!"V") := by simp [upper_V]
  have e2 : (decide (k = c!"H") || decide (k = c!"h")) = decide (upperKey k = c!"H") := by simp [upper_H]
  have e3 : (decide (k = c!"S") || decide (k = c!"s")) = decide (upperKey k = c!"S") := by simp [upper_S]
  have e4 : (decide (upperKey k = c!"H") && decide (c!"/" ∈ k :: c!":" :: val)) = (decide (upperKey k = c!"H") && decide (c!"/" ∈ val)) := by
    by_cases hk : upperKey k = c!"H"
    · rcases (upper_H k).mp hk with rfl | rfl <;> simp
    · simp [hk]
  rw [e1, e2, e3, e4]
  generalize upperKey k = K
  unfold MyINFO.letter
  by_cases h1 : K = c!"V"
  · subst h1; simp [tagMix]
  by_cases h2 : K = c!"M"
  · subst h2; simp [tagMix]
  by_cases h3 : K = c!"H"
  · subst h3
    simp only [show (c!"H" = c!"V") = False by simp, show (c!"H" = c!"M") = False by simp, if_false, if_true, hubs_eq]
    simp
  by_cases h4 : K = c!"S"
  · subst h4
    simp only [show (c!"S" = c!"V") = False by simp, show (c!"S" = c!"M") = False by simp, show (c!"S" = c!"H") = False by simp, if_false, if_true]
    rcases mapErr (atoiTrim val) (.other 84) with a | e | _ <;> simp [tagMix]
  · simp [h1, h2, h3, h4, tagMix]

omit [HtmlEntities] in
theorem tagField_eq (v h r s : Bool) (u m : MyINFO) (first : Bool) (cl f : Bytes) :
    MyINFO.tagField first cl (tagMix v h r s u m) f = (do
      let p ← MyINFO.tagField first cl m f
      pure (p.1, tagMix (v || NmdcReuse.keyed c!"V" c!"v" f) (h || NmdcReuse.keyed c!"H" c!"h" f)
        (r || (NmdcReuse.keyed c!"H" c!"h" f && decide (c!"/" ∈ f))) (s || NmdcReuse.keyed c!"S" c!"s" f) u p.2)) := by
  unfold MyINFO.tagField
  by_cases hf : f.length = 0
  · have : f = [] := by simpa using hf
    subst this
    simp [NmdcReuse.keyed]
  · simp only [if_neg hf]
    cases hi : indexByte f c!":" with
    | none =>
      have hn := indexByte_none.mp hi
      have hk : ∀ a b, NmdcReuse.keyed a b f = false := by
        intro a b
        match f, hn with
        | [], _ => rfl
        | [_], _ => simp [NmdcReuse.keyed]
        | x :: y :: t, hn =>
          have : y ≠ c!":" := by rintro rfl; simp at hn
          simp [NmdcReuse.keyed, this]
      cases first <;> simp [hk]
    | some i =>
      obtain ⟨a, b, rfl, ha, rfl⟩ := indexByte_some hi
      simp only
      by_cases h0 : a.length = 0
      · simp [h0]
      · simp only [if_neg h0]
        rw [sliceFrom_ok (by simp)]
        simp only [Res.ok_bind, List.take_left]
        have hd : (a ++ c!":" :: b).drop (a.length + 1) = b := by simp
        rw [hd]
        match a, ha, h0 with
        | [k], _, _ =>
          simp only [List.cons_append, List.nil_append]
          rw [letter_eq]
          rcases m.letter (upperKey k) b with m' | e | _ <;> rfl
        | x :: y :: t, ha, _ =>
          have : y ≠ c!":" := by rintro rfl; simp at ha
          simp [NmdcReuse.keyed, this, tagMix]

omit [HtmlEntities] in
theorem tagFields_eq (v h r s : Bool) (u m : MyINFO) (first : Bool) (cl : Bytes) (fs : List Bytes) :
    MyINFO.tagFields first cl (tagMix v h r s u m) fs = (do
      let p ← MyINFO.tagFields first cl m fs
      pure (p.1, tagMix (v || fs.any (NmdcReuse.keyed c!"V" c!"v")) (h || fs.any (NmdcReuse.keyed c!"H" c!"h"))
        (r || fs.any (fun f => NmdcReuse.keyed c!"H" c!"h" f && decide (c!"/" ∈ f))) (s || fs.any (NmdcReuse.keyed c!"S" c!"s")) u p.2)) := by
  induction fs generalizing v h r s m first cl with
  | nil => simp [MyINFO.tagFields]
  | cons f fs ih =>
    unfold MyINFO.tagFields
    rw [tagField_eq]
    rcases MyINFO.tagField first cl m f with ⟨c', m'⟩ | e | _
    case err => rfl
    case panic => rfl
    simp only [Res.ok_bind, Res.pure_eq, List.any_cons]
    rw [ih]
    simp only [Bool.or_assoc]
    rfl

omit [HtmlEntities] in
theorem afterLast_some {f : Bytes} {c : Byte} {i : Nat} (h : lastIndexByte f c = some i) :
    sliceFrom f (i + 1) = .ok (NmdcReuse.afterLast c f) := by
  obtain ⟨a, b, rfl, hb, rfl⟩ := lastIndexByte_some h
  rw [sliceFrom_ok (by simp)]
  have : NmdcReuse.afterLast c (a ++ c :: b) = b := by
    unfold NmdcReuse.afterLast
    rw [List.reverse_append, List.reverse_cons, List.append_assoc,
      List.takeWhile_append_of_pos (fun x hx => by simp; rintro rfl; exact hb (by simpa using hx))]
    simp
  rw [this]; simp

/-- What the first field of the line leaves. -/
def descMix (f : Bytes) (u m : MyINFO) : MyINFO :=
  let t := NmdcReuse.afterLast c!"<" f
  let fs := split (NmdcReuse.tagBody (if t.getLast? = some c!">" then t.dropLast else t)) c!","
  if c!"<" ∈ f then
    let x := tagMix (fs.any (NmdcReuse.keyed c!"V" c!"v")) (fs.any (NmdcReuse.keyed c!"H" c!"h"))
      (fs.any (fun f => NmdcReuse.keyed c!"H" c!"h" f && decide (c!"/" ∈ f))) (fs.any (NmdcReuse.keyed c!"S" c!"s")) u m
    { x with client := { x.client with name := m.client.name } }
  else { u with mode := m.mode }

omit [HtmlEntities] in
theorem unmarshalTag_eq (u m : MyINFO) (tag : Bytes) (hm : m.mode = u.mode) :
    u.unmarshalTag tag = (do
      let r ← m.unmarshalTag tag
      let fs := split (NmdcReuse.tagBody tag) c!","
      let x := tagMix (fs.any (NmdcReuse.keyed c!"V" c!"v")) (fs.any (NmdcReuse.keyed c!"H" c!"h"))
        (fs.any (fun f => NmdcReuse.keyed c!"H" c!"h" f && decide (c!"/" ∈ f))) (fs.any (NmdcReuse.keyed c!"S" c!"s")) u r
      pure { x with client := { x.client with name := r.client.name } }) := by
  have key : ∀ (cl : Bytes) (rest : Bytes),
      (do
        let p ← MyINFO.tagFields true cl { u with extra := [] } (split rest c!",")
        Res.ok { p.2 with client := { p.2.client with name := p.1 } }) =
      ((do
        let p ← MyINFO.tagFields true cl { m with extra := [] } (split rest c!",")
        Res.ok { p.2 with client := { p.2.client with name := p.1 } }) >>= fun r =>
          let fs := split rest c!","
          let x := tagMix (fs.any (NmdcReuse.keyed c!"V" c!"v")) (fs.any (NmdcReuse.keyed c!"H" c!"h"))
            (fs.any (fun f => NmdcReuse.keyed c!"H" c!"h" f && decide (c!"/" ∈ f))) (fs.any (NmdcReuse.keyed c!"S" c!"s")) u r
          Res.ok { x with client := { x.client with name := r.client.name } }) := by
    intro cl rest
    have h0 : { u with extra := [] } = tagMix false false false false u { m with extra := [] } := by simp [tagMix, hm]
    rw [h0, tagFields_eq]
    rcases MyINFO.tagFields true cl { m with extra := [] } (split rest c!",") with ⟨c', m'⟩ | e | _
    · simp [tagMix]
    · rfl
    · rfl
  unfold MyINFO.unmarshalTag tagVersion NmdcReuse.tagBody
  cases h1 : index tag b!" V:" with
  | some i =>
    have hle := (index_some h1)
    simp only
    by_cases hl : i + 1 ≤ tag.length
    · simp only [sliceFrom_ok hl, Res.ok_bind, Res.pure_eq]
      exact key _ _
    · simp [sliceFrom, hl]
  | none =>
    simp only
    cases h2 : index tag b!" v:" with
    | some i =>
      simp only
      by_cases hl : i + 1 ≤ tag.length
      · simp only [sliceFrom_ok hl, Res.ok_bind, Res.pure_eq]
        exact key _ _
      · simp [sliceFrom, hl]
    | none =>
      simp only [Res.ok_bind, Res.pure_eq]
      exact key _ _

omit [HtmlEntities] in
theorem descField_eq (u m : MyINFO) (f : Bytes) :
    u.descField f = (do let p ← m.descField f; pure (p.1, descMix f u p.2.1, p.2.2)) := by
  unfold MyINFO.descField descMix
  cases hi : lastIndexByte f c!"<" with
  | none =>
    have hn := lastIndexByte_none.mp hi
    simp [hn]
  | some i =>
    have hm : c!"<" ∈ f := by
      apply Classical.byContradiction; intro hc; rw [← lastIndexByte_none] at hc; simp [hc] at hi
    simp only [afterLast_some hi, Res.ok_bind, if_pos hm]
    split
    · rfl
    · generalize (if (NmdcReuse.afterLast c!"<" f).getLast? = some c!">" then (NmdcReuse.afterLast c!"<" f).dropLast
        else NmdcReuse.afterLast c!"<" f) = tag
      rw [unmarshalTag_eq { u with mode := 0 } { m with mode := 0 } tag rfl]
      rcases MyINFO.unmarshalTag { m with mode := 0 } tag with r | e | _
      · simp [tagMix]
      · rfl
      · rfl

theorem myINFO_eq (dec : Codec) (u : MyINFO) (d : Bytes) :
    u.unmarshal dec d = (do let m ← ({} : MyINFO).unmarshal dec d; pure (NmdcReuse.myINFO u d m)) := by
  unfold MyINFO.unmarshal
  by_cases hp : hasPrefix d b!"$ALL " = true
  case neg => simp [hp]
  simp only [if_pos hp]
  have hd : sliceFrom d 5 = .ok (NmdcReuse.after c!" " d) := by
    obtain ⟨t, rfl⟩ := hasPrefix_iff.mp hp
    rw [sliceFrom_ok (by simp)]
    simp [NmdcReuse.after, List.dropWhile]
  simp only [hd, Res.ok_bind]
  cases hi : indexByte (NmdcReuse.after c!" " d) c!" " with
  | none => rfl
  | some i =>
    obtain ⟨h1, -, -⟩ := after_some hi
    simp only [h1, Res.ok_bind]
    rcases Name.unmarshal dec ((NmdcReuse.after c!" " d).take i) with n | e | _
    case err => rfl
    case panic => rfl
    simp only [Res.ok_bind]
    unfold NmdcReuse.myINFO NmdcReuse.hasKey NmdcReuse.hasHubs NmdcReuse.tagged NmdcReuse.tagParts NmdcReuse.infoParts
    generalize split (NmdcReuse.after c!" " (NmdcReuse.after c!" " d)) c!"$" = l
    match l with
    | [] => rfl
    | [_] => rfl
    | [_, _] => rfl
    | [_, _, _] => rfl
    | [_, _, _, _] => rfl
    | [_, _, _, _, _] => rfl
    | _ :: _ :: _ :: _ :: _ :: _ :: _ :: _ => rfl
    | [f1, f2, f3, f4, f5, _] =>
      simp only [List.getD_cons_zero, List.getD_cons_succ]
      unfold MyINFO.fields
      rw [descField_eq { u with name := n } { name := n }]
      cases hr : MyINFO.descField { name := n } f1 with
      | err e => rfl
      | panic => rfl
      | ok r =>
        obtain ⟨desc, r, tg⟩ := r
        simp only [Res.ok_bind, Res.pure_eq]
        rcases Str.unmarshal dec desc with s | e | _
        case err => rfl
        case panic => rfl
        simp only [Res.ok_bind]
        match f2 with
        | [] => rfl
        | _ :: _ :: _ => rfl
        | [c] =>
          have hn : r.name = n := by
            have := descField_eq { name := n } { name := n } f1
            rw [hr] at this
            simp only [Res.ok_bind, Res.pure_eq, Res.ok.injEq, Prod.mk.injEq, true_and, and_true] at this
            rw [this]
            unfold descMix
            simp only
            split <;> rfl
          simp only
          unfold MyINFO.connField
          cases f3 with
          | nil =>
            simp only [List.getLast?_nil, Res.ok_bind]
            rcases Str.unmarshal dec f4 with e | e | _
            case err => rfl
            case panic => rfl
            simp only [Res.ok_bind]
            unfold MyINFO.sizeField descMix
            by_cases h5 : f5 = [] <;> by_cases ht : c!"<" ∈ f1 <;> cases tg <;> simp [h5, ht, hn, tagMix]
          | cons a t =>
            have hl : (a :: t).getLast? = some ((a :: t).getLast (by simp)) := List.getLast?_eq_some_getLast (by simp)
            rw [hl]
            simp only
            rcases Str.unmarshal dec (a :: t).dropLast with s' | e | _
            case err => rfl
            case panic => rfl
            simp only [Res.ok_bind]
            rcases Str.unmarshal dec f4 with e | e | _
            case err => rfl
            case panic => rfl
            simp only [Res.ok_bind]
            unfold MyINFO.sizeField descMix
            by_cases h5 : f5 = [] <;> by_cases ht : c!"<" ∈ f1 <;> cases tg <;> simp [h5, ht, hn, tagMix]

/-! ## C97 -/

/-- A line decoded into a used message gives what it gives in a fresh one, but for the fields the specification names, which keep
the value they had; and whether it is refused, and with which error, does not depend on the message. -/
theorem reused (dec : Codec) (u : Msg) (d : Bytes) :
    u.unmarshal dec d = (do let m ← u.fresh.unmarshal dec d; pure (NmdcReuse.kept u d m)) := by
  cases u with
  | chat u =>
    simp only [Msg.unmarshal, Msg.fresh, chat_eq dec u]
    rcases ({} : ChatMessage).unmarshal dec d with m | e | _ <;> rfl
  | userCommand u =>
    simp only [Msg.unmarshal, Msg.fresh, userCommand_eq dec u]
    rcases ({} : UserCommand).unmarshal dec d with m | e | _ <;> rfl
  | connectToMe u =>
    simp only [Msg.unmarshal, Msg.fresh, connectToMe_eq dec u]
    rcases ({} : ConnectToMe).unmarshal dec d with m | e | _ <;> rfl
  | errMsg k u =>
    simp only [Msg.unmarshal, Msg.fresh, errMsg_eq dec u]
    rcases ErrMsg.unmarshal dec none d with m | e | _ <;> rfl
  | hubINFO u =>
    simp only [Msg.unmarshal, Msg.fresh, hubINFO_eq dec u]
    rcases ({} : HubINFO).unmarshal dec d with m | e | _ <;> rfl
  | adcGet u =>
    simp only [Msg.unmarshal, Msg.fresh, adcGet_eq dec u]
    rcases ({} : ADCGet).unmarshal dec d with m | e | _ <;> rfl
  | adcSnd u =>
    simp only [Msg.unmarshal, Msg.fresh, adcSnd_eq dec u]
    rcases ({} : ADCSnd).unmarshal dec d with m | e | _ <;> rfl
  | search u =>
    simp only [Msg.unmarshal, Msg.fresh, search_eq dec u]
    rcases ({} : Search).unmarshal dec d with m | e | _ <;> rfl
  | sr u =>
    simp only [Msg.unmarshal, Msg.fresh, sr_eq dec u]
    rcases ({} : SR).unmarshal dec d with m | e | _ <;> rfl
  | myINFO u =>
    simp only [Msg.unmarshal, Msg.fresh, myINFO_eq dec u]
    rcases ({} : MyINFO).unmarshal dec d with m | e | _ <;> rfl
  | _ =>
    rw [NmdcMessages.reuse_partial dec d rfl]
    exact bind_id _ _ (fun m => by cases m <;> rfl)

/-- Which lines are accepted, refused or fatal does not depend on what the message was. -/
theorem outcome (dec : Codec) (u : Msg) (d : Bytes) (e : Err) :
    ((∃ m, u.unmarshal dec d = .ok m) ↔ ∃ m, u.fresh.unmarshal dec d = .ok m) ∧
      (u.unmarshal dec d = .err e ↔ u.fresh.unmarshal dec d = .err e) ∧
      (u.unmarshal dec d = .panic ↔ u.fresh.unmarshal dec d = .panic) := by
  rw [reused]
  rcases u.fresh.unmarshal dec d with m | e | _ <;> simp

end

section
local instance : HtmlEntities := basicEntities

/-- A user without a tag is given the client, the hubs and the slots of the user decoded before. -/
example : (Msg.myINFO { name := b!"ann", client := ⟨b!"++", b!"0.8"⟩, hubsNormal := 3, slots := 5, email := b!"a@b" }).unmarshal none
    b!"$ALL joe desc$ $$$1$" =
    .ok (.myINFO { name := b!"joe", desc := b!"desc", client := ⟨b!"++", b!"0.8"⟩, hubsNormal := 3, slots := 5, shareSize := 1 }) := by
  decide +kernel

/-- A tag without slots leaves the slots and replaces the rest. -/
example : (Msg.myINFO { name := b!"ann", client := ⟨b!"++", b!"0.8"⟩, hubsNormal := 3, slots := 5 }).unmarshal none
    b!"$ALL joe desc<DC V:1,M:A,H:7>$ $$$1$" =
    .ok (.myINFO { name := b!"joe", desc := b!"desc", client := ⟨b!"DC", b!"1"⟩, mode := c!"A", hubsNormal := 7, slots := 5, shareSize := 1 }) := by
  decide +kernel

/-- A search for a pattern leaves the hash of the search decoded before, and a search through the hub leaves the address. -/
example : (Msg.search { address := b!"1.2.3.4:5", size := 9, tth := some .zero }).unmarshal none b!"Hub:joe F?T??1?x" =
    .ok (.search { address := b!"1.2.3.4:5", user := b!"joe", isMaxSize := true, size := 9, dataType := 1, pattern := b!"x", tth := some .zero }) := by
  decide +kernel

/-- A refused line is refused for any previous value. -/
example : (Msg.connectToMe { secure := true }).unmarshal none b!"joe" = .err (.other 34) := by decide +kernel

end

end Verif.Props.NmdcReuse
