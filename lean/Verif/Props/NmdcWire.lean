import Verif.Nmdc.FormLemmas

/-!
# The text of NMDC messages (C71)
-/

namespace Verif.Props.NmdcWire

open Verif.Go Verif.Spec Verif.Spec.NmdcWire Verif.Nmdc

/-- Both sides as the pieces that are written and the bytes they give. -/
local macro "wire" : tactic =>
  `(tactic| (simp only [Res.bind_eq_ok, Res.pure_eq, Res.ok.injEq, Res.ok_bind, written_wr, wr_nil, wr_lit, wr_num, itoa_natCast, wr_hash,
      wr_name, wr_text, wr_pattern, wr_texts, wr_texts_end, wr_extra, ex_through, List.nil_append, List.cons_append, List.append_nil, List.append_assoc, Option.some.injEq,
      exists_eq_left', exists_eq_left, if_true, if_false, ne_eq, not_true_eq_false, not_false_eq_true, reduceCtorEq, false_and,
      exists_const, exists_false, Bool.not_true, Bool.not_false, Bool.false_eq_true, Option.map_some, Option.map_none, opt]))

/-- The payload of one message. -/
abbrev Wire (enc : Codec) (ord : StrMap → StrMap) (m : Msg) : Prop :=
  ∀ p, m.marshal enc ord = .ok p ↔ ∃ ps, form ord m = some ps ∧ Written enc ps p

variable (enc : Codec) (ord : StrMap → StrMap)

theorem priv_wire (m : PrivateMessage) : Wire enc ord (.priv m) := by
  intro p
  simp only [Msg.marshal, PrivateMessage.marshal, form]
  wire

theorem mcTo_wire (m : MCTo) : Wire enc ord (.mcTo m) := by
  intro p
  simp only [Msg.marshal, MCTo.marshal, form]
  wire

theorem chat_wire (m : ChatMessage) : Wire enc ord (.chat m) := by
  intro p
  simp only [Msg.marshal, ChatMessage.marshal, form, opt, ne_eq]
  by_cases h : m.name = []
  · simp only [h]
    wire
  · simp only [h]
    wire

theorem userCommand_wire (m : UserCommand) : Wire enc ord (.userCommand m) := by
  intro p
  simp only [Msg.marshal, UserCommand.marshal, form, opt, ne_eq, marshalPath_eq]
  have e1 : utoa (toU64 m.typ) = itoa (unsigned m.typ) := by rw [← toU64_eq, itoa_natCast]
  have e2 : utoa (toU64 m.context) = itoa (unsigned m.context) := by rw [← toU64_eq, itoa_natCast]
  rw [e1, e2]
  by_cases hp : m.path = [] <;> by_cases hc : m.command = []
  all_goals simp only [hp, hc]
  · wire
  · wire
  · wire
  · wire

theorem connectToMe_wire (m : ConnectToMe) : Wire enc ord (.connectToMe m) := by
  intro p
  simp only [Msg.marshal, ConnectToMe.marshal, form, ctmForm, ctmLetter, opt]
  by_cases ht : m.targ = [] <;> by_cases hs : m.src = [] <;> by_cases h0 : m.kind = 0 <;> by_cases h1 : m.kind = 1 <;>
    by_cases h2 : m.kind = 2 <;> by_cases h3 : m.secure = true
  all_goals try omega
  all_goals simp [ht, hs, h0, h1, h2, h3]
  all_goals wire
  all_goals simp

theorem revConnectToMe_wire (m : RevConnectToMe) : Wire enc ord (.revConnectToMe m) := by
  intro p
  simp only [Msg.marshal, RevConnectToMe.marshal, form]
  wire

theorem errMsg_wire (k : ErrKind) (e : Option Bytes) : Wire enc ord (.errMsg k e) := by
  intro p
  cases e with
  | none => simp only [Msg.marshal, ErrMsg.marshal, form]; wire
  | some t => simp only [Msg.marshal, ErrMsg.marshal, form]; wire; simp

theorem simple_wire : (∀ k n, Wire enc ord (.name k n)) ∧ (∀ k s, Wire enc ord (.text k s)) ∧ (∀ k, Wire enc ord (.noArgs k)) ∧
    (∀ k s, Wire enc ord (.value k s)) ∧ (∀ t d, Wire enc ord (.raw t d)) := by
  refine ⟨fun k n p => ?_, fun k s p => ?_, fun k p => ?_, fun k s p => ?_, fun t d p => ?_⟩
  all_goals simp only [Msg.marshal, NoArgs.marshal, RawValue.marshal, form]
  all_goals wire
  all_goals simp

theorem failOver_wire (l : List Bytes) : Wire enc ord (.failOver l) := by
  intro p
  simp only [Msg.marshal, FailOver.marshal, form, Option.some.injEq, exists_eq_left', between_lits, Res.ok.injEq]
  exact eq_comm

theorem supports_wire (l : List Bytes) : Wire enc ord (.supports l) := by
  intro p
  simp only [Msg.marshal, Supports.marshal, form]
  by_cases h : l = []
  · simp [h]
  · simp only [h, if_false, Option.some.injEq, exists_eq_left', between_lits, Res.ok.injEq]
    exact eq_comm

theorem lock_wire (m : Lock) : Wire enc ord (.lock m) := by
  intro p
  simp only [Msg.marshal, Lock.marshal, extLockPref, form, opt, ne_eq]
  by_cases h1 : m.noExt = true <;> by_cases h2 : m.pk = [] <;> by_cases h3 : m.ref = []
  all_goals simp only [h1, h2, h3]
  all_goals wire

theorem hubINFO_wire (m : HubINFO) : Wire enc ord (.hubINFO m) := by
  intro p
  simp only [Msg.marshal, HubINFO.marshal, form, softForm, opt, ne_eq, Software.text, join]
  by_cases h : m.soft.version = []
  · simp only [h]; wire
  · simp only [h]; wire

theorem adcGet_wire (m : ADCGet) : Wire enc ord (.adcGet m) := by
  intro p
  simp only [Msg.marshal, ADCGet.marshal, form, opt]
  by_cases h : m.compressed = true <;> cases hd : m.downloaded
  all_goals simp only [h, ADCGet.downText]
  all_goals wire

theorem adcSnd_wire (m : ADCSnd) : Wire enc ord (.adcSnd m) := by
  intro p
  simp only [Msg.marshal, ADCSnd.marshal, form, opt]
  by_cases h : m.compressed = true
  all_goals simp only [h]
  all_goals wire

theorem direction_wire (m : Direction) : Wire enc ord (.direction m) := by
  intro p
  simp only [Msg.marshal, Direction.marshal, form, toI64_eq]
  wire

theorem sa_wire (m : SA) : Wire enc ord (.sa m) := by
  intro p
  simp only [Msg.marshal, SA.marshal, form]
  wire

theorem sp_wire (m : SP) : Wire enc ord (.sp m) := by
  intro p
  simp only [Msg.marshal, SP.marshal, form]
  wire

theorem names_all (l : List Bytes) : ∀ a p, (∃ x, Names.marshalAll enc l = .ok x ∧ a ++ x = p) ↔
    Wr enc (l.flatMap fun n => [.name n, .lit b!"$$"]) a p := by
  induction l with
  | nil => intro a p; simp only [Names.marshalAll, List.flatMap_nil]; wire
  | cons n l ih =>
    intro a p
    simp only [Names.marshalAll, List.flatMap_cons, dd]
    wire
    simp only [← ih, List.append_assoc]
    constructor
    · rintro ⟨x, ⟨w, h1, ws, h2, rfl⟩, rfl⟩; exact ⟨w, h1, ws, h2, by simp⟩
    · rintro ⟨w, h1, ws, h2, rfl⟩; exact ⟨_, ⟨w, h1, ws, h2, rfl⟩, by simp⟩

theorem names_wire (k : ListKind) (l : List Bytes) : Wire enc ord (.names k l) := by
  intro p
  cases l with
  | nil => simp only [Msg.marshal, Names.marshal, form, dd]; wire
  | cons n l =>
    have := names_all enc (n :: l) [] p
    simp only [List.nil_append, exists_eq_right] at this
    simp only [Msg.marshal, Names.marshal, form, reduceCtorEq, if_false, Option.some.injEq, exists_eq_left', written_wr]
    exact this

theorem userIP_wire (l : List UserAddress) : Wire enc ord (.userIP l) := by
  have all : ∀ l : List UserAddress, ∀ a p, (∃ x, UserIP.marshal enc l = .ok x ∧ a ++ x = p) ↔
      Wr enc (l.flatMap fun a => [.name a.name, .lit b!" ", .lit a.ip, .lit b!"$$"]) a p := by
    intro l
    induction l with
    | nil => intro a p; simp only [UserIP.marshal, List.flatMap_nil]; wire
    | cons n l ih =>
      intro a p
      simp only [UserIP.marshal, List.flatMap_cons, dd]
      wire
      simp only [← ih, List.append_assoc]
      constructor
      · rintro ⟨x, ⟨w, h1, ws, h2, rfl⟩, rfl⟩; exact ⟨w, h1, ws, h2, by simp⟩
      · rintro ⟨w, h1, ws, h2, rfl⟩; exact ⟨_, ⟨w, h1, ws, h2, rfl⟩, by simp⟩
  intro p
  have := all l [] p
  simp only [List.nil_append, exists_eq_right] at this
  simp only [Msg.marshal, form, Option.some.injEq, exists_eq_left', written_wr]
  exact this

theorem search_wire (m : Search) : Wire enc ord (.search m) := by
  intro p
  simp only [Msg.marshal, Search.marshal, Search.who, Search.what, Search.flags, form, searchForm, whatForm, whoForm, limitForm]
  have ht : ((if m.dataType = 0 then (1 : Int) else m.dataType) : Int) = ((if m.dataType = 0 then 1 else m.dataType : Nat) : Int) := by
    split <;> simp
  rw [ht]
  generalize (if m.dataType = 0 then 1 else m.dataType : Nat) = t
  by_cases h1 : m.address = [] <;> by_cases h2 : m.dataType = 9 <;> by_cases h3 : m.sizeRestricted = true <;>
    by_cases h4 : m.isMaxSize = true
  all_goals cases h5 : m.tth
  all_goals simp only [h1, h2, h3, h4, ne_eq]
  all_goals wire
  all_goals simp

theorem sr_wire (m : SR) : Wire enc ord (.sr m) := by
  intro p
  simp only [Msg.marshal, SR.marshal, SR.source, SR.target, SR.slots, form, srForm, opt]
  by_cases h1 : m.path = [] <;> by_cases h2 : m.isDir = true <;> by_cases h3 : m.dst = [] <;> cases h4 : m.tth
  all_goals simp only [h1, h2, h3, ne_eq]
  all_goals wire
  all_goals simp

theorem myINFO_wire (m : MyINFO) : Wire enc ord (.myINFO m) := by
  intro p
  simp only [Msg.marshal, MyINFO.marshal, MyINFO.tag, form, infoForm, tagForm]
  have hm : (if m.mode ≠ 0 ∧ m.mode ≠ c!" " then m.mode else c!" ") = if m.mode = 0 then c!" " else m.mode := by
    by_cases h : m.mode = 0
    · simp [h]
    · by_cases h' : m.mode = c!" " <;> simp [h, h']
  rw [hm]
  wire

/-- **C71 (payload).** The payload of every message is exactly what the table says; a message that the table refuses, or one with a
piece that cannot be written, is not encoded. -/
theorem payload_wire (m : Msg) (p : Bytes) : m.marshal enc ord = .ok p ↔ ∃ ps, form ord m = some ps ∧ Written enc ps p := by
  cases m with
  | chat m => exact chat_wire enc ord m p
  | priv m => exact priv_wire enc ord m p
  | mcTo m => exact mcTo_wire enc ord m p
  | userCommand m => exact userCommand_wire enc ord m p
  | connectToMe m => exact connectToMe_wire enc ord m p
  | revConnectToMe m => exact revConnectToMe_wire enc ord m p
  | errMsg k e => exact errMsg_wire enc ord k e p
  | name k n => exact (simple_wire enc ord).1 k n p
  | text k s => exact (simple_wire enc ord).2.1 k s p
  | noArgs k => exact (simple_wire enc ord).2.2.1 k p
  | value k s => exact (simple_wire enc ord).2.2.2.1 k s p
  | failOver l => exact failOver_wire enc ord l p
  | supports l => exact supports_wire enc ord l p
  | lock m => exact lock_wire enc ord m p
  | hubINFO m => exact hubINFO_wire enc ord m p
  | names k l => exact names_wire enc ord k l p
  | userIP l => exact userIP_wire enc ord l p
  | adcGet m => exact adcGet_wire enc ord m p
  | adcSnd m => exact adcSnd_wire enc ord m p
  | direction m => exact direction_wire enc ord m p
  | search m => exact search_wire enc ord m p
  | sr m => exact sr_wire enc ord m p
  | sa m => exact sa_wire enc ord m p
  | sp m => exact sp_wire enc ord m p
  | myINFO m => exact myINFO_wire enc ord m p
  | raw t d => exact (simple_wire enc ord).2.2.2.2 t d p

/-- The model knows the same commands. -/
theorem command_typ (m : Msg) : command m = if m.typ = [] then none else some m.typ := by
  cases m with
  | errMsg k e => cases k <;> rfl
  | name k n => cases k <;> rfl
  | text k s => cases k <;> rfl
  | noArgs k => cases k <;> rfl
  | value k s => cases k <;> rfl
  | names k l => cases k <;> rfl
  | raw t d => rfl
  | _ => rfl

/-- **C71 (line).** `Marshal` gives exactly the line of the command of the message and its payload. -/
theorem line_wire (m : Msg) (l : Bytes) :
    marshalMsg enc ord m = .ok l ↔ ∃ ps p, form ord m = some ps ∧ Written enc ps p ∧ LineOf (command m) p l := by
  have key : ∀ p, finishMsg ([] ++ msgHead m.typ) p = .ok l ↔ LineOf (command m) p l := by
    intro p
    rw [command_typ]
    unfold finishMsg msgHead
    by_cases ht : m.typ = [] <;> by_cases hp : p = []
    · simp only [ht, hp, if_true, List.nil_append, reduceCtorEq, false_iff]
      intro h; cases h with | chat h => exact h rfl
    · simp only [ht, hp, if_true, if_false, List.nil_append, Res.ok.injEq]
      constructor
      · rintro rfl; exact .chat hp
      · intro h; cases h; rfl
    · simp only [ht, hp, if_true, if_false]
      have hne : ([] ++ (b!"$" ++ m.typ ++ b!" ")) ≠ ([] : Bytes) := by simp
      rw [if_neg hne, Res.ok.injEq, List.nil_append, List.dropLast_concat]
      constructor
      · rintro rfl; exact .bare
      · intro h
        cases h with
        | command h => exact absurd rfl h
        | bare => rfl
    · simp only [ht, hp, if_false, Res.ok.injEq]
      constructor
      · rintro rfl; exact .command hp
      · intro h
        cases h with
        | command h => rfl
        | bare => exact absurd rfl hp
  unfold marshalMsg marshalTo
  rw [Res.bind_eq_ok]
  simp only [payload_wire, key]
  constructor
  · rintro ⟨p, ⟨ps, h1, h2⟩, h3⟩; exact ⟨ps, p, h1, h2, h3⟩
  · rintro ⟨ps, p, h1, h2, h3⟩; exact ⟨p, ⟨ps, h1, h2⟩, h3⟩

/-- A search for a hash by a passive user. -/
example : marshalMsg none id (.search { user := b!"a<b", dataType := 9, tth := some .zero, isMaxSize := true, sizeRestricted := true, size := 10 }) =
    .ok b!"$Search Hub:a&lt;b T?T?10?9?TTH:AAAAAAAAAAAAAAAAAAAAAAAAAAAAAAAAAAAAAAA|" := by with_unfolding_all rfl

/-- A message that is refused. -/
example : form id (.connectToMe { targ := b!"joe", kind := 1 }) = none := by decide

end Verif.Props.NmdcWire
