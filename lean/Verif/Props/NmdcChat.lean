import Verif.Nmdc.ChatLemmas
import Verif.Nmdc.NumLemmas

/-!
# Chat messages and user commands (C17, C18, C19)

`TextOk`: well-formed UTF-8 without a legacy sequence.  `NameOk`: also at most 256 bytes when escaped.
Decoding is into a fresh value (`{}`); see `NmdcReuse` for used ones.
-/

namespace Verif.Props.NmdcChat

open Verif.Go Verif.Spec Verif.Nmdc

attribute [local instance] basicEntities

/-- A chat message comes back unchanged if it has a name, or if its text does not begin with `<`. -/
theorem chat_roundtrip [HtmlEntities] {enc dec : Codec} (hl : Lossless enc dec) {m : ChatMessage} {w : Bytes}
    (hname : m.name ≠ [] ∧ NameOk enc m.name ∨ m.name = [] ∧ ∀ e, enc.run m.text = .ok e → e.head? ≠ some c!"<")
    (htext : TextOk enc m.text) (h : m.marshal enc = .ok w) : ChatMessage.unmarshal dec {} w = .ok m := by
  obtain ⟨name, text⟩ := m
  simp only at *
  unfold ChatMessage.marshal at h
  rcases hname with ⟨hne, hok⟩ | ⟨rfl, hhd⟩
  · simp only [hne, ne_eq, not_false_eq_true, if_true, Res.bind_eq_ok, Res.pure_eq, Res.ok.injEq] at h
    obtain ⟨n, hn, _, rfl, t, ht, rfl⟩ := h
    have hc := name_marshal_clean hn
    have hscan := chatScan_name (n := n) (t := t)
      (fun b hb => ⟨(hc b hb).2.2.2.1, (hc b hb).2.2.2.2.2.1, (hc b hb).2.2.2.2.2.2.1⟩) 0 0
    have hlen := hok.2 n hn
    simp only [List.cons_append, List.nil_append, List.append_assoc] at hscan ⊢
    have h1 : n ++ 62 :: 32 :: t ≠ [] := by simp
    have e : n ++ 62 :: 32 :: t = n ++ [62, 32] ++ t := by simp
    simp only [ChatMessage.unmarshal, if_true, if_neg h1, hscan, Res.ok_bind, Nat.zero_add]
    rw [sliceTo_append, e, sliceFrom_lit (by rfl)]
    simp [maxName, Nat.not_lt.mpr hlen, name_roundtrip hl hok hn, str_roundtrip hl htext ht]
  · simp only [ne_eq, not_true_eq_false, if_false, Res.pure_eq, Res.ok_bind, List.nil_append, Res.bind_eq_ok,
      Res.ok.injEq, exists_eq_right] at h
    have hrt := str_roundtrip hl htext h
    obtain ⟨e, he, -, rfl⟩ := str_marshal_ok.mp h
    have := escWith_head (tbl := escapeCharString) (fun x v => escString_amp) (by decide) (hhd e he)
    unfold ChatMessage.unmarshal
    split
    · rename_i h0; rw [h0] at hrt ⊢; simp [hrt]
    · rename_i c d h0
      rw [h0] at hrt this ⊢
      rw [if_neg (by simpa using this)]
      simp [hrt]

example : ∃ w, ChatMessage.marshal none ⟨b!"<joe>", b!"<hi> | $5"⟩ = .ok w ∧
    ChatMessage.unmarshal none {} w = .ok ⟨b!"<joe>", b!"<hi> | $5"⟩ :=
  ⟨_, rfl, chat_roundtrip lossless_nil (.inl ⟨by decide, nameOk_of (by decide +kernel)⟩)
    (textOk_of (by decide +kernel)) rfl⟩

example : ∃ w, ChatMessage.marshal none ⟨[], b!"is <away>"⟩ = .ok w ∧
    ChatMessage.unmarshal none {} w = .ok ⟨[], b!"is <away>"⟩ :=
  ⟨_, rfl, chat_roundtrip lossless_nil (.inr ⟨rfl, by intro e he; cases he; decide⟩)
    (textOk_of (by decide +kernel)) rfl⟩

/-- Without a name, a text that begins with `<` is taken for a name. -/
theorem chat_text_misread :
    ∃ w, ChatMessage.marshal none ⟨[], b!"<a> b"⟩ = .ok w ∧ ChatMessage.unmarshal none {} w = .ok ⟨b!"a", b!"b"⟩ :=
  ⟨_, rfl, by decide +kernel⟩

/-- The decoder loses a byte of this line: the name index is relative to the previous `>`. -/
theorem chat_decoder_drops_byte : ChatMessage.unmarshal none {} b!"<abc>d>" = .ok ⟨b!"a", b!"c>d>"⟩ := by
  decide +kernel

/-- A private message comes back unchanged if the recipient's encoded name does not hold ` From:`. -/
theorem private_roundtrip [HtmlEntities] {enc dec : Codec} (hl : Lossless enc dec) {m : PrivateMessage} {w : Bytes}
    (hto : NameOk enc m.to) (hfrm : NameOk enc m.frm) (hname : NameOk enc m.name) (htext : TextOk enc m.text)
    (hsep : ∀ n, Name.marshal enc m.to = .ok n → ¬ b!" From:" <:+: n)
    (h : m.marshal enc = .ok w) : PrivateMessage.unmarshal dec {} w = .ok m := by
  obtain ⟨to, frm, name, text⟩ := m
  simp only [PrivateMessage.marshal, Res.bind_eq_ok, Res.pure_eq, Res.ok.injEq] at h hto hfrm hname htext hsep
  obtain ⟨a, ha, b, hb, c, hc, d, hd, rfl⟩ := h
  have hb' := name_marshal_clean hb
  have hc' := name_marshal_clean hc
  have h1 : index (a ++ b!" From: " ++ (b ++ b!" $<" ++ (c ++ b!"> " ++ d))) b!" From: " = some a.length := by
    refine index_at (by simp) ?_
    intro hi
    refine hsep a ha ?_
    obtain ⟨x, y, hxy⟩ := hi
    simp only [List.dropLast] at hxy
    -- the final space of the pattern lies in `a` or is the first space of the separator
    have hlen : x.length + y.length + 7 = a.length + 6 := by
      have := congrArg List.length hxy
      simp at this; omega
    have e2 : x ++ b!" From:" ++ (c!" " :: y) = a ++ b!" From:" := by simpa using hxy
    have hx6 : x.length + 6 ≤ a.length := by
      refine Nat.not_lt.mp fun hlt => ?_
      have hx1 : x.length < a.length := by
        have hy := congrArg List.length hxy
        simp at hy
        refine Nat.not_le.mp fun hle => ?_
        omega
      have hk := congrArg (·[a.length]?) e2
      simp only [List.append_assoc] at hk
      rw [List.getElem?_append_right (by omega), List.getElem?_append_right (l₁ := a) (by omega)] at hk
      generalize hkk : a.length - x.length = k at hk
      have : k = 1 ∨ k = 2 ∨ k = 3 ∨ k = 4 ∨ k = 5 := by omega
      rcases this with rfl | rfl | rfl | rfl | rfl <;> simp at hk
    refine ⟨x, (a.drop (x.length + 6)), ?_⟩
    have e3 : x ++ b!" From:" = a.take (x.length + 6) := by
      have h3 := congrArg (List.take (x.length + 6)) e2
      rw [List.take_left' (by simp), List.take_append_of_le_length (by omega)] at h3
      exact h3
    rw [e3, List.take_append_drop]
  have h2 : index (b ++ b!" $<" ++ (c ++ b!"> " ++ d)) b!" $<" = some b.length :=
    index_snd (fun h => (hb' _ h).1 rfl) (by decide)
  have h3 : index (c ++ b!"> " ++ d) b!"> " = some c.length := index_append (fun h => (hc' _ h).2.2.2.1 rfl)
  have e : a ++ b!" From: " ++ b ++ b!" $<" ++ c ++ b!"> " ++ d =
      a ++ b!" From: " ++ (b ++ b!" $<" ++ (c ++ b!"> " ++ d)) := by simp
  rw [e]
  unfold PrivateMessage.unmarshal
  simp only [h1, h2, h3, take_lit, sliceFrom_lit (p := b!" From: ") (n := 7) rfl, sliceFrom_lit (p := b!" $<") (n := 3) rfl,
    sliceFrom_lit (p := b!"> ") (n := 2) rfl, name_roundtrip hl hto ha, name_roundtrip hl hfrm hb, name_roundtrip hl hname hc,
    str_roundtrip hl htext hd, Res.ok_bind, Res.pure_eq]

example : ∃ w, PrivateMessage.marshal none ⟨b!"peer $< x", b!"me", b!"me> ", b!" From: $<a> b"⟩ = .err (.other 12) ∧
    PrivateMessage.marshal none ⟨b!"peer < x", b!"me < you", b!"me> ", b!" From: $<a> b"⟩ = .ok w ∧
    PrivateMessage.unmarshal none {} w = .ok ⟨b!"peer < x", b!"me < you", b!"me> ", b!" From: $<a> b"⟩ := by
  refine ⟨_, rfl, rfl, private_roundtrip lossless_nil (nameOk_of (by decide +kernel)) (nameOk_of (by decide +kernel)) (nameOk_of (by decide +kernel))
    (textOk_of (by decide +kernel)) ?_ rfl⟩
  intro n hn; cases hn; decide

/-- A recipient whose name holds the separator gets the message of someone else. -/
theorem private_misread :
    ∃ w, PrivateMessage.marshal none ⟨b!"a From: b", b!"me", b!"me", b!"hi"⟩ = .ok w ∧
      PrivateMessage.unmarshal none {} w = .ok ⟨b!"a", b!"b From: me", b!"me", b!"hi"⟩ :=
  ⟨_, rfl, by decide +kernel⟩

/-- An MCTo message comes back unchanged if the sender's encoded name holds no space. -/
theorem mcto_roundtrip [HtmlEntities] {enc dec : Codec} (hl : Lossless enc dec) {m : MCTo} {w : Bytes}
    (hto : NameOk enc m.to) (hfrm : NameOk enc m.frm) (htext : TextOk enc m.text)
    (hsep : ∀ n, Name.marshal enc m.frm = .ok n → c!" " ∉ n)
    (h : m.marshal enc = .ok w) : MCTo.unmarshal dec {} w = .ok m := by
  obtain ⟨to, frm, text⟩ := m
  simp only [MCTo.marshal, Res.bind_eq_ok, Res.pure_eq, Res.ok.injEq] at h hto hfrm htext hsep
  obtain ⟨a, ha, b, hb, d, hd, rfl⟩ := h
  have ha' := name_marshal_clean ha
  have h1 : index (a ++ b!" $" ++ (b ++ b!" " ++ d)) b!" $" = some a.length :=
    index_snd (fun h => (ha' _ h).1 rfl) (by decide)
  have h2 : indexByte (b ++ b!" " ++ d) c!" " = some b.length := by
    simpa using indexByte_append (hsep b hb)
  have e : a ++ b!" $" ++ b ++ b!" " ++ d = a ++ b!" $" ++ (b ++ b!" " ++ d) := by simp
  rw [e]
  unfold MCTo.unmarshal
  simp only [h1, h2, take_lit, sliceFrom_lit (p := b!" $") (n := 2) rfl, sliceFrom_lit (p := b!" ") (n := 1) rfl,
    name_roundtrip hl hto ha, name_roundtrip hl hfrm hb, str_roundtrip hl htext hd, Res.ok_bind, Res.pure_eq]

example : ∃ w, MCTo.marshal none ⟨b!"you there", b!"me", b!"a $ b"⟩ = .ok w ∧
    MCTo.unmarshal none {} w = .ok ⟨b!"you there", b!"me", b!"a $ b"⟩ := by
  refine ⟨_, rfl, mcto_roundtrip lossless_nil (nameOk_of (by decide +kernel)) (nameOk_of (by decide +kernel))
    (textOk_of (by decide +kernel)) ?_ rfl⟩
  intro n hn; cases hn; decide

/-- A user command comes back unchanged if it has both path and command, or neither; the path elements
are not empty and hold no backslash; the last element does not end with a space, nor the command with white space. -/
theorem userCommand_roundtrip [HtmlEntities] {enc dec : Codec} (hl : Lossless enc dec) {m : UserCommand} {w : Bytes}
    (htyp : 0 ≤ m.typ ∧ m.typ < 2 ^ 63) (hctx : 0 ≤ m.context ∧ m.context < 2 ^ 63)
    (hboth : m.path = [] ↔ m.command = [])
    (hpath : ∀ s ∈ m.path, TextOk enc s ∧ ∀ t, Str.marshal enc s = .ok t → t ≠ [] ∧ c!"\\" ∉ t)
    (hlast : ∀ s, m.path.getLast? = some s → ∀ t, Str.marshal enc s = .ok t → t.getLast? ≠ some c!" ")
    (hcmd : TextOk enc m.command ∧ ∀ t, Str.marshal enc m.command = .ok t → ∀ r, isSpaceRune r = true → ¬ utf8 r <:+ t)
    (h : m.marshal enc = .ok w) : UserCommand.unmarshal dec {} w = .ok m := by
  obtain ⟨typ, ctx, path, command⟩ := m
  simp only at htyp hctx hboth hpath hlast hcmd
  unfold UserCommand.marshal at h
  have ht := int_utoa htyp.1 htyp.2
  have hc := int_utoa hctx.1 hctx.2
  have nsp : ∀ n, c!" " ∉ utoa n := fun n => utoa_no (by decide)
  by_cases hp : path = []
  · have hcm := hboth.mp hp
    simp [hp, hcm] at h
    subst h
    have e : utoa (toU64 typ) ++ 32 :: utoa (toU64 ctx) = utoa (toU64 typ) ++ b!" " ++ utoa (toU64 ctx) := by simp
    unfold UserCommand.unmarshal
    rw [trimSpaceU_id (digit_head _ _) (by rw [e]; exact digit_last _ _), splitMax_append (nsp _), splitMax_of_not_mem (nsp _)]
    simp [ht, digits_takeWhile, hc, hp, hcm]
  · have hcm : command ≠ [] := fun h' => hp (hboth.mpr h')
    simp only [hp, hcm, ne_eq, not_false_eq_true, if_true, if_false, Res.bind_eq_ok, Res.pure_eq, Res.ok.injEq] at h
    obtain ⟨ws, hws, _, rfl, c, hcc, rfl⟩ := h
    have h2 := marshalPath_ok hws
    have hne : ∀ w ∈ ws, w ≠ [] ∧ c!"\\" ∉ w ∧ c!"$" ∉ w := by
      intro w hw
      obtain ⟨s, hs, hsw⟩ := h2.right w hw
      exact ⟨((hpath s hs).2 w hsw).1, ((hpath s hs).2 w hsw).2, fun h => (str_marshal_clean hsw _ h).1 rfl⟩
    have hwsne : ws ≠ [] := by
      rintro rfl; have := h2.length; simp at this; exact hp this
    generalize hJ : join ws c!"\\" = J
    have hJd : c!"$" ∉ J := by
      rw [← hJ]
      clear hJ hwsne hws h2
      induction ws with
      | nil => simp [join]
      | cons w ws ih =>
        cases ws with
        | nil => simpa [join] using (hne w (by simp)).2.2
        | cons v ws =>
          rw [join_cons2, List.mem_append, List.mem_cons]
          rintro (h | h | h)
          · exact (hne w (by simp)).2.2 h
          · exact absurd h (by decide)
          · exact ih (fun x hx => hne x (by simp [hx])) h
    have hJl : J.getLast? ≠ some c!" " := by
      rw [← hJ, join_getLast? (fun w hw => (hne w hw).1)]
      intro h'
      obtain ⟨w, hw, hw'⟩ := Option.bind_eq_some_iff.mp h'
      obtain ⟨s, hs, hsw⟩ := h2.getLast? hw
      exact hlast s hs w hsw hw'
    have e : utoa (toU64 typ) ++ b!" " ++ utoa (toU64 ctx) ++ (b!" " ++ J) ++ b!" $" ++ c =
        utoa (toU64 typ) ++ c!" " :: (utoa (toU64 ctx) ++ c!" " :: ((J ++ b!" ") ++ c!"$" :: c)) := by simp
    have e' : utoa (toU64 typ) ++ c!" " :: (utoa (toU64 ctx) ++ c!" " :: ((J ++ b!" ") ++ c!"$" :: c)) =
        (utoa (toU64 typ) ++ b!" " ++ utoa (toU64 ctx) ++ (b!" " ++ J) ++ b!" ") ++ c!"$" :: c := by simp
    have hi : indexByte ((J ++ b!" ") ++ c!"$" :: c) c!"$" = some (J ++ b!" ").length :=
      indexByte_append (by simp [hJd])
    have htr : trimRight (J ++ b!" ") (· = c!" ") = J := by
      rw [trimRight_append_cut (by decide), trimRight_id]
      intro x hx
      simp only [decide_eq_false_iff_not]
      rintro rfl
      exact hJl hx
    have hsplit : split J c!"\\" = ws := by rw [← hJ]; exact split_join hwsne (fun w hw => (hne w hw).2.1)
    unfold UserCommand.unmarshal
    rw [e, trimSpaceU_id (digit_head _ _) (by rw [e']; exact noSpaceLast_of (by decide) (by decide) (hcmd.2 c hcc)),
      splitMax_append (nsp _), splitMax_append (nsp _)]
    have hun := unmarshalPath_ok (dec := dec) (fun w hw => (hne w hw).1)
      (h2.imp (S := fun p w => Str.unmarshal dec w = .ok p) (fun s hs w hw => str_roundtrip hl (hpath s hs).1 hw))
    simp only [splitMax, ht, digits_takeWhile, hc, Res.ok_bind, hi]
    rw [if_neg (by simp), List.take_left' rfl, htr, hsplit, hun, sliceFrom_append']
    simp [str_roundtrip hl hcmd.1 hcc]

example : ∃ w, UserCommand.marshal none ⟨1, 3, [b!"menu", b!"kick & ban"], b!"<%[mynick]> +kick $1"⟩ = .ok w := ⟨_, rfl⟩

example : ∃ w, UserCommand.marshal none ⟨1, 3, [b!"menu", b!"kick & ban"], b!"<[mynick]> +kick $1"⟩ = .ok w ∧
    UserCommand.unmarshal none {} w = .ok ⟨1, 3, [b!"menu", b!"kick & ban"], b!"<[mynick]> +kick $1"⟩ := by
  refine ⟨_, rfl, userCommand_roundtrip lossless_nil (by decide) (by decide) (by decide) ?_ ?_ ⟨textOk_of (by decide +kernel), ?_⟩ rfl⟩
  · intro s hs
    simp only [List.mem_cons, List.not_mem_nil, or_false] at hs
    rcases hs with rfl | rfl
    · exact ⟨textOk_of (by decide +kernel), by intro t ht; cases ht; decide⟩
    · exact ⟨textOk_of (by decide +kernel), by intro t ht; cases ht; decide⟩
  · intro s hs t ht; cases hs; cases ht; decide
  · intro t ht r hr
    cases ht
    rw [isSpaceRune_iff] at hr
    revert r
    decide +kernel

/-- A command without path, or a path without command, is encoded to a line the decoder refuses. -/
theorem userCommand_half :
    (∃ w, UserCommand.marshal none ⟨1, 3, [], b!"x"⟩ = .ok w ∧ UserCommand.unmarshal none {} w = .err (.other 22)) ∧
    (∃ w, UserCommand.marshal none ⟨1, 3, [b!"x"], []⟩ = .ok w ∧ UserCommand.unmarshal none {} w = .err (.other 22)) :=
  ⟨⟨_, rfl, by decide +kernel⟩, ⟨_, rfl, by decide +kernel⟩⟩

/-- White space at the end of a command, and empty path elements, are lost. -/
theorem userCommand_trimmed :
    ∃ w, UserCommand.marshal none ⟨1, 3, [b!"a", [], b!"b "], b!"x\n"⟩ = .ok w ∧
      UserCommand.unmarshal none {} w = .ok ⟨1, 3, [b!"a", b!"b"], b!"x"⟩ :=
  ⟨_, rfl, by decide +kernel⟩

end Verif.Props.NmdcChat
