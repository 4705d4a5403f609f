import Verif.Nmdc.Left
import Verif.Props.NmdcReuse
import Verif.Props.HashVar

/-!
# What a call of a decoder leaves in the message (C98)
-/

namespace Verif.Props.NmdcLeft

open Verif.Go Verif.Nmdc Verif.Tiger Verif.Nmdc.Call
open Verif.Spec hiding value

set_option linter.unusedSectionVars false
variable [HtmlEntities]

/-! ## Calls as functions -/

section
variable {σ α β : Type}

/-- Result and receiver of a call that succeeds. -/
def full (c : Call σ α) (s : σ) : Res (α × σ) :=
  match (c s).1 with
  | .ok a => .ok (a, (c s).2)
  | .err e => .err e
  | .panic => .panic

theorem value_bind (x : Call σ α) (f : α → Call σ Unit) (s : σ) : value (x >>= f) s = full x s >>= fun p => value (f p.1) p.2 := by
  show value (Call.bind x f) s = _
  unfold value full Call.bind
  cases (x s).1 <;> rfl

theorem full_bind (x : Call σ α) (f : α → Call σ β) (s : σ) : full (x >>= f) s = full x s >>= fun p => full (f p.1) p.2 := by
  show full (Call.bind x f) s = _
  unfold full Call.bind
  cases (x s).1 <;> rfl

theorem full_pure (a : α) (s : σ) : full (pure a : Call σ α) s = .ok (a, s) := rfl
theorem full_run (r : Res α) (s : σ) : full (run r : Call σ α) s = r >>= fun a => .ok (a, s) := by cases r <;> rfl
theorem full_set (f : σ → σ) (s : σ) : full (set f) s = .ok ((), f s) := rfl
theorem full_assign (f : α → σ → σ) (r : Res α) (v : α) (s : σ) : full (assign f r v) s = r >>= fun a => .ok ((), f a s) := by
  cases r <;> rfl
theorem value_pure (s : σ) : value (pure () : Call σ Unit) s = .ok s := rfl
theorem value_run (r : Res Unit) (s : σ) : value (run r : Call σ Unit) s = r >>= fun _ => .ok s := by cases r <;> rfl
theorem value_set (f : σ → σ) (s : σ) : value (set f) s = .ok (f s) := rfl
theorem value_assign (f : α → σ → σ) (r : Res α) (v : α) (s : σ) : value (assign f r v) s = r >>= fun a => .ok (f a s) := by
  cases r <;> rfl
theorem full_value (c : Call σ Unit) (s : σ) : full c s = value c s >>= fun s => .ok ((), s) := by
  unfold full value
  cases (c s).1 <;> rfl

theorem bind_assoc {α β γ : Type} (x : Res α) (f : α → Res β) (g : β → Res γ) : (x >>= f) >>= g = x >>= fun a => f a >>= g := by
  cases x <;> rfl

theorem value_on {τ : Type} (mk : σ → τ) {c : Call σ Unit} {s : σ} {r : Res σ} (hv : value c s = r) {m : Call τ Unit} {t : τ}
    (h : m t = Call.on mk c s) : value m t = r >>= fun r => pure (mk r) := by
  rw [← hv]
  unfold value
  rw [h]
  unfold Call.on
  cases (c s).1 <;> rfl

end

/-- Walk through a call. -/
macro "calls" : tactic => `(tactic| simp only [value_bind, full_bind, full_pure, full_run, full_set, full_assign, value_pure, value_run,
  value_set, value_assign, bind_assoc, Res.ok_bind, Res.pure_eq])

theorem must_bind {α : Type} (i : Option Nat) (e : Err) (f : Nat → Res α) :
    (must i e >>= f) = match i with | some i => f i | none => .err e := by
  cases i <;> rfl

theorem ite_bind {α β : Type} {c : Prop} [Decidable c] (x y : Res α) (f : α → Res β) :
    ((if c then x else y) >>= f) = if c then x >>= f else y >>= f := by
  split <;> rfl

theorem step {α β : Type} {x : Res α} {f g : α → Res β} (h : ∀ a, f a = g a) : (x >>= f) = (x >>= g) := by
  rw [funext h]

/-- Two decoders step by step. -/
macro "walk" : tactic => `(tactic| repeat' first
  | rfl
  | refine step fun _ => ?_
  | (split <;> rename_i h <;> simp only [h, if_true, if_false, Res.ok_bind, Res.err_bind, Res.panic_bind]))

theorem unmarshal_set (h : Hash) (buf : Bytes) : (match (h.setBuffer buf).2 with
    | .ok _ => Res.ok ((h.setBuffer buf).1) | .err e => .err e | .panic => .panic) = Hash.unmarshalBase32 buf := by
  have hout := HashVar.setBuffer_outcome h buf
  cases hu : Hash.unmarshalBase32 buf with
  | ok x => rw [(HashVar.buffer_set h buf).1 x ((Identifiers.hash_buffer_exact buf x).mp hu)]
  | err e => rw [hout, hu]
  | panic => rw [hout, hu]

theorem chat_value (dec : Codec) (u : ChatMessage) (d : Bytes) : value (ChatMessage.call dec d) u = u.unmarshal dec d := by
  unfold ChatMessage.call ChatMessage.unmarshal
  cases d with
  | nil => calls
  | cons c d =>
    simp only
    split
    · calls
      simp only [ite_bind, Res.ok_bind, Res.err_bind]
    · calls

theorem priv_value (dec : Codec) (u : PrivateMessage) (d : Bytes) : value (PrivateMessage.call dec d) u = u.unmarshal dec d := by
  unfold PrivateMessage.call PrivateMessage.unmarshal
  calls
  simp only [must_bind]
  walk

theorem mcTo_value (dec : Codec) (u : MCTo) (d : Bytes) : value (MCTo.call dec d) u = u.unmarshal dec d := by
  unfold MCTo.call MCTo.unmarshal
  calls
  simp only [must_bind]
  walk

theorem path_value (dec : Codec) (ps : List Bytes) : ∀ u : UserCommand, value (UserCommand.callPath dec ps) u =
    unmarshalPath dec ps >>= fun l => .ok { u with path := u.path ++ l } := by
  induction ps with
  | nil => intro u; unfold UserCommand.callPath unmarshalPath; simp [value_pure]
  | cons p ps ih =>
    intro u
    unfold UserCommand.callPath unmarshalPath
    split
    · exact ih u
    · calls
      cases Str.unmarshal dec p with
      | ok s => simp only [mapErr, Res.ok_bind, ih, bind_assoc, List.append_assoc, List.singleton_append]
      | err e => rfl
      | panic => rfl

theorem userCommand_value (dec : Codec) (u : UserCommand) (d : Bytes) : value (UserCommand.call dec d) u = u.unmarshal dec d := by
  unfold UserCommand.call UserCommand.unmarshal
  rcases splitMax (trimSpaceU d) c!" " 3 with _ | ⟨a0, _ | ⟨a1, rest⟩⟩
  · rfl
  · rfl
  · calls
    refine step fun _ => step fun _ => ?_
    cases rest with
    | nil => rfl
    | cons val rest =>
      calls
      simp only [must_bind, full_value, path_value, bind_assoc, Res.ok_bind, List.nil_append, ite_bind, Res.err_bind]
      walk

theorem connectToMe_value (dec : Codec) (u : ConnectToMe) (d : Bytes) : value (ConnectToMe.call dec d) u = u.unmarshal dec d := by
  unfold ConnectToMe.call ConnectToMe.unmarshal
  calls
  simp only [must_bind]
  split
  · rename_i h
    simp only [h]
    refine step fun _ => step fun d => ?_
    cases indexByte d c!" " <;> calls
  · rename_i h
    simp only [h]

theorem revConnectToMe_value (dec : Codec) (u : RevConnectToMe) (d : Bytes) :
    value (RevConnectToMe.call dec d) u = u.unmarshal dec d := by
  unfold RevConnectToMe.call RevConnectToMe.unmarshal
  calls
  simp only [must_bind]
  walk

theorem errMsg_value (dec : Codec) (u : Option Bytes) (d : Bytes) : value (ErrMsg.call dec d) u = ErrMsg.unmarshal dec u d := by
  unfold ErrMsg.call ErrMsg.unmarshal
  calls

theorem atEnd_value {σ : Type} (r : Res σ) (u : σ) : value (atEnd r) u = r := by
  unfold atEnd
  calls
  cases r <;> rfl

theorem lock_value (u : Lock) (d : Bytes) : value (Lock.call d) u = Lock.unmarshal d := by
  unfold Lock.call
  calls
  exact atEnd_value _ _

theorem hubField_value (dec : Codec) (n i : Nat) (f : Bytes) (u : HubINFO) :
    value (HubINFO.callField dec n i f) u = HubINFO.field dec n i u f := by
  unfold HubINFO.callField HubINFO.field
  split <;> calls

theorem hubFields_value (dec : Codec) (n : Nat) (fs : List Bytes) : ∀ (i : Nat) (u : HubINFO),
    value (HubINFO.callFields dec n i fs) u = HubINFO.fields dec n i u fs := by
  induction fs with
  | nil => intro i u; rfl
  | cons f fs ih =>
    intro i u
    unfold HubINFO.callFields HubINFO.fields
    rw [value_bind, full_value, hubField_value, bind_assoc]
    simp only [Res.ok_bind, ih]

theorem hubINFO_value (dec : Codec) (u : HubINFO) (d : Bytes) : value (HubINFO.call dec d) u = u.unmarshal dec d :=
  hubFields_value dec _ _ 0 u

theorem entries_value (dec : Codec) (bs : List Bytes) : ∀ u : List UserAddress, value (UserIP.callEntries dec bs) u =
    UserIP.entries dec bs >>= fun l => .ok (u ++ l) := by
  induction bs with
  | nil => intro u; unfold UserIP.callEntries UserIP.entries; simp [value_pure]
  | cons p ps ih =>
    intro u
    unfold UserIP.callEntries UserIP.entries
    calls
    simp only [ih, List.append_assoc, List.singleton_append]

theorem userIP_value (dec : Codec) (u : List UserAddress) (d : Bytes) : value (UserIP.call dec d) u = UserIP.unmarshal dec d := by
  unfold UserIP.call UserIP.unmarshal
  calls
  rw [entries_value]
  simp only [List.nil_append]
  cases UserIP.entries dec (splitDD (trimSuffix (trimSuffix d b!"\r") dd)) <;> rfl

theorem flags_value (fs : List Bytes) : ∀ u : ADCGet, value (ADCGet.callFlags fs) u = adcGetFlags fs u := by
  induction fs with
  | nil => intro u; rfl
  | cons f fs ih =>
    intro u
    unfold ADCGet.callFlags adcGetFlags
    split
    · calls; exact ih _
    · split
      · calls; simp only [ih]
      · exact ih _

theorem adcGet_value (dec : Codec) (u : ADCGet) (d : Bytes) : value (ADCGet.call dec d) u = u.unmarshal dec d := by
  unfold ADCGet.call ADCGet.unmarshal
  calls
  simp only [flags_value]
  refine step fun p => step fun s => step fun q => step fun t => step fun r => step fun k => step fun w => ?_
  split
  · rfl
  · cases mapErr (parseUin64Trim w.1) (.other 44) <;> rfl

theorem adcSnd_value (dec : Codec) (u : ADCSnd) (d : Bytes) : value (ADCSnd.call dec d) u = u.unmarshal dec d := by
  unfold ADCSnd.call ADCSnd.unmarshal
  calls
  refine step fun p => step fun s => step fun q => step fun t => step fun r => step fun k => step fun w => step fun l => ?_
  split
  · calls
    split <;> rfl
  · rfl

theorem direction_value (u : Direction) (d : Bytes) : value (Direction.call d) u = Direction.unmarshal d := by
  unfold Direction.call Direction.unmarshal
  calls
  refine step fun p => ?_
  simp only [ite_bind, Res.err_bind, Res.ok_bind]

theorem newHash_full {σ : Type} (f : Option Hash → σ → σ) (buf : Bytes) (s : σ) :
    full (newHash f buf) s = Hash.unmarshalBase32 buf >>= fun h => .ok ((), f (some h) s) := by
  have := unmarshal_set .zero buf
  unfold full newHash
  simp only
  rw [← this]
  cases (Hash.setBuffer .zero buf).2 <;> rfl

theorem newHash_value {σ : Type} (f : Option Hash → σ → σ) (buf : Bytes) (s : σ) :
    value (newHash f buf) s = Hash.unmarshalBase32 buf >>= fun h => .ok (f (some h) s) := by
  have h1 := full_value (newHash f buf) s
  rw [newHash_full] at h1
  cases hv : value (newHash f buf) s <;> cases hu : Hash.unmarshalBase32 buf <;> rw [hv, hu] at h1 <;> simp_all

theorem callSize_value (field : Bytes) (u : Search) : value (Search.callSize field) u = Search.sizeField u.size field >>= fun p =>
    .ok { u with sizeRestricted := u.sizeRestricted && !p.1, size := p.2 } := by
  unfold Search.callSize Search.sizeField
  cases field with
  | nil => simp [value_pure]
  | cons c t =>
    simp only
    split
    · calls; simp
    · calls; simp

theorem searchTarget_value (dec : Codec) (typ : Nat) (field : Bytes) (u : Search) : value (Search.callTarget dec typ field) u =
    Search.target dec u typ field >>= fun p => .ok { u with pattern := p.1, tth := p.2 } := by
  unfold Search.callTarget Search.target
  split
  · calls
    simp only [ite_bind, Res.ok_bind, Res.err_bind, newHash_value, bind_assoc]
  · calls

theorem searchString_value (dec : Codec) (d : Bytes) (u : Search) :
    value (Search.callString dec d) u = Search.unmarshalString dec u d := by
  unfold Search.callString Search.unmarshalString
  rcases splitMax d c!"?" 5 with _ | ⟨f0, _ | ⟨f1, _ | ⟨f2, _ | ⟨f3, _ | ⟨f4, _ | ⟨f5, r⟩⟩⟩⟩⟩⟩
  · rfl
  · rfl
  · rfl
  · rfl
  · rfl
  · calls
    simp only [full_value, callSize_value, searchTarget_value, bind_assoc, Res.ok_bind]
    refine step fun a => step fun b => step fun p => step fun t => ?_
    have : ∀ x y : Search, x.pattern = y.pattern → x.tth = y.tth → Search.target dec x t f4 = Search.target dec y t f4 := by
      intro x y h1 h2
      unfold Search.target
      rw [h1, h2]
    exact congrArg (· >>= _) (this _ u rfl rfl)
  · rfl

theorem search_value (dec : Codec) (u : Search) (d : Bytes) : value (Search.call dec d) u = u.unmarshal dec d := by
  unfold Search.call Search.unmarshal
  calls
  simp only [must_bind]
  cases indexByte d c!" " with
  | none => rfl
  | some i =>
    simp only
    refine step fun a => ?_
    split <;> (calls; simp only [searchString_value])

theorem slots_value (slots : Bytes) (u : SR) : value (SR.callSlots slots) u = SR.parseSlots slots >>= fun p =>
    .ok { u with freeSlots := p.1, totalSlots := p.2 } := by
  unfold SR.callSlots SR.parseSlots
  calls
  simp only [must_bind]
  cases indexByte slots c!"/" <;> calls
  rfl

theorem source_full (dec : Codec) (d : Bytes) (u : SR) : full (SR.callSource dec d) u = SR.parseSource dec u d >>= fun p =>
    .ok (p.2.2, { u with hubName := p.1, tth := p.2.1 }) := by
  unfold SR.callSource SR.parseSource
  split
  · calls
    simp only [ite_bind, Res.ok_bind, Res.err_bind, newHash_full, bind_assoc]
  · calls
    simp only [must_bind]
    cases index d b!" (" <;> calls
    rfl

theorem target_value (dec : Codec) (d : Bytes) (u : SR) : value (SR.callTarget dec d) u = SR.parseTarget dec u d >>= fun p =>
    .ok { u with hubAddress := p.1, dst := p.2 } := by
  unfold SR.callTarget SR.parseTarget
  calls
  simp only [must_bind]
  cases indexByte d c!")" with
  | none => rfl
  | some i =>
    calls
    refine step fun d => ?_
    cases d with
    | nil => rfl
    | cons c t =>
      calls
      simp only [ite_bind, Res.ok_bind, Res.err_bind, bind_assoc]

theorem tail_value (dec : Codec) (path slots d : Bytes) (u : SR) : value (SR.callTail dec path slots d) u = SR.tail dec u path slots d := by
  unfold SR.callTail SR.tail
  calls
  simp only [full_value, slots_value, source_full, target_value, bind_assoc, Res.ok_bind]
  refine step fun _ => step fun s => ?_
  have h1 : ∀ x y : SR, x.hubName = y.hubName → x.tth = y.tth → SR.parseSource dec x d = SR.parseSource dec y d := by
    intro x y h1 h2
    unfold SR.parseSource
    rw [h1, h2]
  have h2 : ∀ (x y : SR) (d : Bytes), x.dst = y.dst → SR.parseTarget dec x d = SR.parseTarget dec y d := by
    intro x y d h1
    unfold SR.parseTarget
    rw [h1]
  refine (congrArg (· >>= _) (h1 _ u rfl rfl)).trans (step fun p => ?_)
  exact congrArg (· >>= _) (h2 _ u _ rfl)

theorem file_full (d : Bytes) (u : SR) : full (SR.callFile d) u = SR.fileSplit d >>= fun p =>
    .ok ((p.2.1, p.2.2), { u with isDir := false, size := p.1 }) := by
  unfold SR.callFile SR.fileSplit
  calls
  simp only [must_bind]
  cases indexByte d 5 with
  | none => rfl
  | some i =>
    calls
    refine step fun r => ?_
    cases indexByte (d.take i) c!" " <;> calls
    rfl

theorem sr_value (dec : Codec) (u : SR) (d : Bytes) : value (SR.call dec d) u = u.unmarshal dec d := by
  unfold SR.call SR.unmarshal
  calls
  simp only [must_bind]
  cases indexByte d c!" " with
  | none => rfl
  | some i =>
    simp only
    refine step fun n => step fun d => ?_
    cases indexByte d 5 with
    | none => rfl
    | some j =>
      simp only
      refine step fun r => ?_
      cases SR.dirSplit (d.take j) with
      | none =>
        calls
        simp only [file_full, bind_assoc, Res.ok_bind, tail_value]
      | some q =>
        calls
        simp only [tail_value]

theorem short_full {σ : Type} (get : σ → Hash) (put : Hash → σ → σ) (d : Bytes) (u : σ) :
    full (callShort get put d) u = shortSearch d >>= fun p => .ok (p.2, put p.1 u) := by
  have key : full (oldHash get put (d.take 39)) u = Hash.unmarshalBase32 (d.take 39) >>= fun h => .ok ((), put h u) := by
    rw [← unmarshal_set (get u)]
    unfold full oldHash
    simp only
    cases ((get u).setBuffer (d.take 39)).2 <;> rfl
  unfold callShort shortSearch
  calls
  simp only [key, ite_bind, Res.ok_bind, Res.err_bind, bind_assoc]

theorem sa_value (u : SA) (d : Bytes) : value (SA.call d) u = SA.unmarshal d := by
  unfold SA.call SA.unmarshal
  calls
  simp only [short_full, bind_assoc, Res.ok_bind]

theorem sp_value (dec : Codec) (u : SP) (d : Bytes) : value (SP.call dec d) u = SP.unmarshal dec d := by
  unfold SP.call SP.unmarshal
  calls
  simp only [short_full, bind_assoc, Res.ok_bind]

theorem hubs_value (val : Bytes) (u : MyINFO) : value (MyINFO.callHubs val) u = u.hubs val := by
  unfold MyINFO.callHubs MyINFO.hubs
  split
  · rfl
  · split
    · calls
    · rcases splitN val c!"/" 3 with _ | ⟨_ | ⟨x, _ | ⟨y, _ | ⟨z, _ | ⟨w, r⟩⟩⟩⟩⟩ <;> first | rfl | calls

theorem letter_value (k : Byte) (val : Bytes) (u : MyINFO) : value (MyINFO.callLetter k val) u = u.letter k val := by
  unfold MyINFO.callLetter MyINFO.letter
  split
  · rfl
  · split
    · rfl
    · split
      · exact hubs_value val u
      · split
        · calls
        · rfl

theorem tagField_full (first : Bool) (cl f : Bytes) (u : MyINFO) :
    full (MyINFO.callTagField first cl f) u = MyINFO.tagField first cl u f := by
  unfold MyINFO.callTagField MyINFO.tagField
  split
  · rfl
  · cases indexByte f c!":" with
    | none => cases first <;> rfl
    | some i =>
      simp only
      split
      · rfl
      · calls
        refine step fun v => ?_
        rcases f.take i with _ | ⟨k, _ | ⟨k', r⟩⟩
        · rfl
        · calls
          simp only [full_value, letter_value, bind_assoc, Res.ok_bind]
        · rfl

theorem tagFields_full (fs : List Bytes) : ∀ (first : Bool) (cl : Bytes) (u : MyINFO),
    full (MyINFO.callTagFields first cl fs) u = MyINFO.tagFields first cl u fs := by
  induction fs with
  | nil => intro first cl u; rfl
  | cons f fs ih =>
    intro first cl u
    unfold MyINFO.callTagFields MyINFO.tagFields
    rw [full_bind, tagField_full]
    simp only [ih]

theorem tag_value (tag : Bytes) (u : MyINFO) : value (MyINFO.callTag tag) u = u.unmarshalTag tag := by
  unfold MyINFO.callTag MyINFO.unmarshalTag
  calls
  simp only [tagFields_full]
  cases tagVersion tag <;> calls

theorem desc_full (f : Bytes) (u : MyINFO) : full (MyINFO.callDesc f) u = u.descField f >>= fun p => .ok ((p.1, p.2.2), p.2.1) := by
  unfold MyINFO.callDesc MyINFO.descField
  calls
  cases lastIndexByte f c!"<" with
  | none => rfl
  | some i =>
    calls
    simp only [full_value, tag_value, bind_assoc, Res.ok_bind, ite_bind, Res.err_bind]

theorem conn_value (dec : Codec) (f : Bytes) (u : MyINFO) : value (MyINFO.callConn dec f) u = u.connField dec f := by
  unfold MyINFO.callConn MyINFO.connField
  cases f.getLast? <;> calls

theorem fields_value (dec : Codec) (f1 f2 f3 f4 f5 : Bytes) (u : MyINFO) :
    value (MyINFO.callFields dec f1 f2 f3 f4 f5) u = u.fields dec f1 f2 f3 f4 f5 := by
  unfold MyINFO.callFields MyINFO.fields
  calls
  simp only [desc_full, bind_assoc, Res.ok_bind]
  refine step fun p => step fun s => ?_
  rcases f2 with _ | ⟨c, _ | ⟨c', r⟩⟩
  · rfl
  · calls
    simp only [full_value, conn_value, bind_assoc, Res.ok_bind]
  · rfl

theorem myINFO_value (dec : Codec) (u : MyINFO) (d : Bytes) : value (MyINFO.call dec d) u = u.unmarshal dec d := by
  unfold MyINFO.call MyINFO.unmarshal
  calls
  simp only [must_bind, ite_bind, Res.ok_bind, Res.err_bind]
  split
  · refine step fun d => ?_
    cases indexByte d c!" " with
    | none => rfl
    | some i =>
      simp only
      refine step fun n => step fun d => ?_
      rcases split d c!"$" with _ | ⟨f0, _ | ⟨f1, _ | ⟨f2, _ | ⟨f3, _ | ⟨f4, _ | ⟨f5, _ | ⟨f6, r⟩⟩⟩⟩⟩⟩⟩ <;> first
        | rfl
        | simp only [fields_value]
  · rfl

/-- The two ways to write a decoder agree: the call ends as `UnmarshalNMDC` ends, and if it succeeds, its value is in the
message. -/
theorem call_value (dec : Codec) (u : Msg) (d : Bytes) : value (Msg.call dec d) u = u.unmarshal dec d := by
  cases u with
  | chat m => exact value_on Msg.chat (chat_value dec m d) (m := Msg.call dec d) rfl
  | priv m => exact value_on Msg.priv (priv_value dec m d) (m := Msg.call dec d) rfl
  | mcTo m => exact value_on Msg.mcTo (mcTo_value dec m d) (m := Msg.call dec d) rfl
  | userCommand m => exact value_on Msg.userCommand (userCommand_value dec m d) (m := Msg.call dec d) rfl
  | connectToMe m => exact value_on Msg.connectToMe (connectToMe_value dec m d) (m := Msg.call dec d) rfl
  | revConnectToMe m => exact value_on Msg.revConnectToMe (revConnectToMe_value dec m d) (m := Msg.call dec d) rfl
  | errMsg k m => exact value_on (Msg.errMsg k) (errMsg_value dec m d) (m := Msg.call dec d) rfl
  | name k m => exact value_on (Msg.name k) (atEnd_value _ m) (m := Msg.call dec d) rfl
  | text k m => exact value_on (Msg.text k) (atEnd_value _ m) (m := Msg.call dec d) rfl
  | noArgs k =>
    unfold value Msg.call Msg.unmarshal
    simp only
    cases NoArgs.unmarshal d <;> rfl
  | value k m => exact value_on (Msg.value k) (atEnd_value _ m) (m := Msg.call dec d) rfl
  | failOver m => exact value_on Msg.failOver (atEnd_value _ m) (m := Msg.call dec d) rfl
  | supports m => exact value_on Msg.supports (atEnd_value _ m) (m := Msg.call dec d) rfl
  | lock m => exact value_on Msg.lock (lock_value m d) (m := Msg.call dec d) rfl
  | hubINFO m => exact value_on Msg.hubINFO (hubINFO_value dec m d) (m := Msg.call dec d) rfl
  | names k m => exact value_on (Msg.names k) (atEnd_value _ m) (m := Msg.call dec d) rfl
  | userIP m => exact value_on Msg.userIP (userIP_value dec m d) (m := Msg.call dec d) rfl
  | adcGet m => exact value_on Msg.adcGet (adcGet_value dec m d) (m := Msg.call dec d) rfl
  | adcSnd m => exact value_on Msg.adcSnd (adcSnd_value dec m d) (m := Msg.call dec d) rfl
  | direction m => exact value_on Msg.direction (direction_value m d) (m := Msg.call dec d) rfl
  | search m => exact value_on Msg.search (search_value dec m d) (m := Msg.call dec d) rfl
  | sr m => exact value_on Msg.sr (sr_value dec m d) (m := Msg.call dec d) rfl
  | sa m => exact value_on Msg.sa (sa_value m d) (m := Msg.call dec d) rfl
  | sp m => exact value_on Msg.sp (sp_value dec m d) (m := Msg.call dec d) rfl
  | myINFO m => exact value_on Msg.myINFO (myINFO_value dec m d) (m := Msg.call dec d) rfl
  | raw t m => rfl

/-! ## What is left after an error of the text encoding -/

/-- From a state with `P`, the call succeeds with `Q` or fails with an error of the text encoding and `E`, or it fails otherwise. -/
def Leaves {σ α : Type} (E P Q : σ → Prop) (c : Call σ α) : Prop :=
  ∀ s, P s → (∀ a, (c s).1 = .ok a → Q (c s).2) ∧ ∀ t, (c s).1 = .err (.unknownEncoding t) → E (c s).2

section
variable {σ α β : Type} {E P Q R : σ → Prop}

theorem leaves_bind {x : Call σ α} {f : α → Call σ β} (R : σ → Prop) (h1 : Leaves E P R x) (h2 : ∀ a, Leaves E R Q (f a)) :
    Leaves E P Q (x >>= f) := by
  intro s hs
  show (∀ a, (Call.bind x f s).1 = .ok a → Q (Call.bind x f s).2) ∧ ∀ t, (Call.bind x f s).1 = .err (.unknownEncoding t) → E (Call.bind x f s).2
  have g1 := h1 s hs
  unfold Call.bind
  cases hx : (x s).1 with
  | ok a => exact h2 a _ (g1.1 a hx)
  | err e => exact ⟨fun _ h => (nomatch h), fun t h => g1.2 t (by rw [hx]; show Res.err e = _; exact congrArg _ (by injection h))⟩
  | panic => exact ⟨fun _ h => (nomatch h), fun _ h => (nomatch h)⟩

theorem leaves_run (r : Res α) (h1 : ∀ s, P s → Q s) (h2 : ∀ s, P s → E s) : Leaves E P Q (run r) :=
  fun s hs => ⟨fun _ _ => h1 s hs, fun _ _ => h2 s hs⟩

theorem leaves_other (r : Res α) (h1 : ∀ s, P s → Q s) (h2 : ∀ t, r ≠ .err (.unknownEncoding t)) : Leaves E P Q (run r) :=
  fun s hs => ⟨fun _ _ => h1 s hs, fun t h => absurd h (h2 t)⟩

theorem leaves_pure (a : α) (h1 : ∀ s, P s → Q s) : Leaves E P Q (pure a : Call σ α) :=
  fun s hs => ⟨fun _ _ => h1 s hs, fun _ h => nomatch h⟩

theorem leaves_set (f : σ → σ) (h1 : ∀ s, P s → Q (f s)) : Leaves E P Q (set f) :=
  fun s hs => ⟨fun _ _ => h1 s hs, fun _ h => nomatch h⟩

theorem leaves_assign (f : α → σ → σ) (r : Res α) (v : α) (h1 : ∀ a s, P s → Q (f a s)) (h2 : ∀ a s, P s → E (f a s)) :
    Leaves E P Q (assign f r v) := by
  intro s hs
  unfold assign
  cases r with
  | ok a => exact ⟨fun _ _ => h1 a s hs, fun _ h => (nomatch h)⟩
  | err e => exact ⟨fun _ h => (nomatch h), fun _ _ => h2 v s hs⟩
  | panic => exact ⟨fun _ h => (nomatch h), fun _ h => (nomatch h)⟩

theorem leaves_full {c : Call σ α} (h1 : ∀ s a s', P s → full c s = .ok (a, s') → Q s')
    (h2 : ∀ s t, full c s ≠ .err (.unknownEncoding t)) : Leaves E P Q c := by
  intro s hs
  have g1 := h1 s
  have g2 := h2 s
  unfold full at g1 g2
  cases hc : (c s).1 with
  | ok a => rw [hc] at g1; exact ⟨fun _ _ => g1 a _ hs rfl, fun _ h => (nomatch h)⟩
  | err e => rw [hc] at g2; exact ⟨fun _ h => (nomatch h), fun t h => absurd (by cases h; rfl) (g2 t)⟩
  | panic => exact ⟨fun _ h => (nomatch h), fun _ h => (nomatch h)⟩

theorem leaves_put {f : σ → σ} {g : Unit → Call σ β} (h1 : ∀ s, P s → P (f s)) (h2 : Leaves E P Q (g ())) :
    Leaves E P Q (set f >>= g) := leaves_bind P (leaves_set _ h1) fun _ => h2

theorem leaves_store {f : α → σ → σ} {r : Res α} {v : α} {g : Unit → Call σ β} (h1 : ∀ a s, P s → P (f a s)) (h : ∀ s, P s → E s)
    (h2 : Leaves E P Q (g ())) : Leaves E P Q (assign f r v >>= g) :=
  leaves_bind P (leaves_assign _ _ _ h1 (fun a s hs => h _ (h1 a s hs))) fun _ => h2

theorem leaves_step {r : Res α} {g : α → Call σ β} (h : ∀ s, P s → E s) (h2 : ∀ a, r = .ok a → Leaves E P Q (g a)) :
    Leaves E P Q (run r >>= g) := by
  cases r with
  | ok a => exact h2 a rfl
  | err e => exact leaves_bind (fun _ => False) (fun s hs => ⟨fun _ h => (nomatch h), fun _ _ => h s hs⟩) (fun _ _ h => h.elim)
  | panic => exact leaves_bind (fun _ => False) (fun s hs => ⟨fun _ h => (nomatch h), fun _ h => (nomatch h)⟩) (fun _ _ h => h.elim)

/-- A call that never touches what `E` speaks of. -/
theorem leaves_end {c : Call σ α} (h : Leaves E P (fun _ => True) c) {u : σ} (hu : P u) {t : Bytes}
    (he : (c u).1 = .err (.unknownEncoding t)) : E (c u).2 := (h u hu).2 t he

end

/-- One step that keeps the invariant. -/
macro "same" : tactic => `(tactic| refine leaves_bind _ (leaves_run _ (fun _ h => h) (fun _ h => h)) fun _ => ?_)

/-- An assignment that keeps the invariant. -/
macro "put" : tactic => `(tactic| refine leaves_put (fun _ h => h) ?_)

/-- The same with a number. -/
macro "store" : tactic => `(tactic| refine leaves_store (fun _ _ h => h) (fun _ h => h) ?_)

/-- The last two steps: a text is decoded and assigned. -/
macro "last" : tactic => `(tactic| exact leaves_bind _ (leaves_run _ (fun _ h => h) (fun _ h => h)) fun _ => leaves_set _ (fun _ _ => trivial))

theorem chat_left (dec : Codec) (u : ChatMessage) (d : Bytes) :
    Leaves (fun s => d.head? ≠ some c!"<" → s.name = u.name) (fun s => d.head? ≠ some c!"<" → s.name = u.name) (fun _ => True)
      (ChatMessage.call dec d) := by
  unfold ChatMessage.call
  have hj : ∀ rest, Leaves (fun s : ChatMessage => d.head? ≠ some c!"<" → s.name = u.name)
      (fun s : ChatMessage => d.head? ≠ some c!"<" → s.name = u.name) (fun _ => True) (do
        let t ← run (Str.unmarshal dec rest)
        set fun m => { m with text := t }) := by
    intro rest
    last
  cases d with
  | nil => exact hj _
  | cons c d =>
    simp only
    split
    · rename_i hc
      same; same; same; same; same
      exact leaves_put (fun _ _ h => absurd (by rw [hc]; rfl) h) (hj _)
    · exact hj _

theorem path_left {E : UserCommand → Prop} (hE : ∀ s, E s) (dec : Codec) (ps : List Bytes) :
    Leaves E E E (UserCommand.callPath dec ps) := fun _ _ => ⟨fun _ _ => hE _, fun _ _ => hE _⟩

theorem userCommand_left (dec : Codec) (u : UserCommand) (d : Bytes) :
    Leaves (fun s => (split (trimSpaceU d) c!" ").length ≤ 2 → s.path = u.path ∧ s.command = u.command)
      (fun s => (split (trimSpaceU d) c!" ").length ≤ 2 → s.path = u.path ∧ s.command = u.command) (fun _ => True)
      (UserCommand.call dec d) := by
  unfold UserCommand.call
  have hs := NmdcReads.splitMax_eq (trimSpaceU d) c!" " 2
  generalize hl : splitMax (trimSpaceU d) c!" " 3 = l at hs
  match l with
  | [] => exact leaves_run _ (fun _ _ => trivial) (fun _ h => h)
  | [_] => exact leaves_run _ (fun _ _ => trivial) (fun _ h => h)
  | a0 :: a1 :: rest =>
    simp only
    same; put; same; put
    cases rest with
    | nil => exact leaves_pure _ (fun _ _ => trivial)
    | cons val rest =>
      have : ¬ (split (trimSpaceU d) c!" ").length ≤ 2 := by
        intro h
        have := congrArg List.length hs
        simp [if_pos h] at this
        omega
      exact fun s _ => ⟨fun _ _ => trivial, fun _ _ h => absurd h this⟩

theorem connectToMe_left (dec : Codec) (u : ConnectToMe) (d : Bytes) :
    Leaves (fun s => s.src = u.src ∧ s.secure = u.secure) (fun s => s.src = u.src ∧ s.secure = u.secure) (fun _ => True)
      (ConnectToMe.call dec d) := by
  unfold ConnectToMe.call
  same; same; put; same
  simp only
  split
  · exact leaves_set _ (fun _ _ => trivial)
  · same; same
    exact leaves_bind (fun _ => True) (leaves_set _ (fun _ _ => trivial)) fun _ => leaves_set _ (fun _ _ => trivial)

theorem errMsg_left (dec : Codec) (u : Option Bytes) (d : Bytes) : Leaves (fun s => s = u) (fun s => s = u) (fun _ => True) (ErrMsg.call dec d) := by
  unfold ErrMsg.call
  last

theorem adcGet_left (dec : Codec) (u : ADCGet) (d : Bytes) :
    Leaves (fun s => s.compressed = u.compressed ∧ s.downloaded = u.downloaded)
      (fun s => s.compressed = u.compressed ∧ s.downloaded = u.downloaded) (fun _ => True) (ADCGet.call dec d) := by
  unfold ADCGet.call
  same; same; put; same; same; put; same
  store
  same; same; put
  refine leaves_full (fun _ _ _ _ _ => trivial) (fun s t h => ?_)
  rw [full_value, flags_value] at h
  revert h
  generalize split _ c!" " = fs
  induction fs generalizing s with
  | nil => intro h; cases h
  | cons f fs ih =>
    unfold adcGetFlags
    split
    · exact ih _
    · split
      · unfold sliceFrom
        split
        · simp only [Res.ok_bind]
          rcases parseUin64Trim (f.drop 2) with n | e | _
          · exact ih _
          · intro h; cases h
          · intro h; cases h
        · intro h; cases h
      · exact ih _

theorem adcSnd_left (dec : Codec) (u : ADCSnd) (d : Bytes) :
    Leaves (fun s => s.compressed = u.compressed) (fun s => s.compressed = u.compressed) (fun _ => True) (ADCSnd.call dec d) := by
  unfold ADCSnd.call
  same; same; put; same; same; put; same
  store
  same
  store
  split
  · last
  · exact leaves_pure _ (fun _ _ => trivial)

/-- The fields of a hub that the line does not have. -/
def HubKeeps (fs : List Bytes) (u s : HubINFO) : Prop :=
  (fs.length ≤ 1 → s.host = u.host) ∧ (fs.length ≤ 2 → s.desc = u.desc) ∧ (fs.length ≤ 3 → s.i1 = u.i1) ∧
  (fs.length ≤ 4 → s.i2 = u.i2) ∧ (fs.length ≤ 5 → s.i3 = u.i3) ∧ (fs.length ≤ 6 → s.i4 = u.i4) ∧
  (fs.length ≤ 7 → s.soft.name = u.soft.name) ∧ (c!" " ∉ fs.getD 7 [] → s.soft.version = u.soft.version) ∧
  (fs.length ≤ 8 → s.owner = u.owner) ∧ (fs.length ≤ 9 → s.state = u.state) ∧ (fs.length ≠ 11 → s.encoding = u.encoding)

theorem hubField_left (dec : Codec) (fs : List Bytes) (u : HubINFO) (i : Nat) (f : Bytes) (hf : fs[i]? = some f) :
    Leaves (HubKeeps fs u) (HubKeeps fs u) (HubKeeps fs u) (HubINFO.callField dec fs.length i f) := by
  have hi : i < fs.length := by
    apply Classical.byContradiction; intro h; rw [List.getElem?_eq_none (by omega)] at hf; cases hf
  unfold HubINFO.callField
  split
  · same; exact leaves_set _ (fun s h => h)
  · exact leaves_set _ (fun s h => ⟨fun h => by omega, h.2⟩)
  · same; exact leaves_set _ (fun s h => ⟨h.1, fun h => by omega, h.2.2⟩)
  · same; exact leaves_set _ (fun s ⟨a, b, c⟩ => ⟨a, b, fun h => by omega, c.2⟩)
  · same; exact leaves_set _ (fun s ⟨a, b, c, d⟩ => ⟨a, b, c, fun h => by omega, d.2⟩)
  · same; exact leaves_set _ (fun s ⟨a, b, c, d, e⟩ => ⟨a, b, c, d, fun h => by omega, e.2⟩)
  · same; exact leaves_set _ (fun s ⟨a, b, c, d, e, f⟩ => ⟨a, b, c, d, e, fun h => by omega, f.2⟩)
  · refine leaves_set _ (fun s ⟨a, b, c, d, e, g, _, h, k⟩ => ⟨a, b, c, d, e, g, fun h => by omega, fun h7 => ?_, k⟩)
    rw [List.getD_eq_getElem?_getD, hf] at h7
    simp only [Option.getD_some] at h7
    have : lastIndexByte f c!" " = none := lastIndexByte_none.mpr h7
    simp only [Software.parse, this]
    exact h (by rw [List.getD_eq_getElem?_getD, hf]; exact h7)
  · same; exact leaves_set _ (fun s ⟨a, b, c, d, e, f, g, h, k⟩ => ⟨a, b, c, d, e, f, g, h, fun h => by omega, k.2⟩)
  · same; exact leaves_set _ (fun s ⟨a, b, c, d, e, f, g, h, k, l⟩ => ⟨a, b, c, d, e, f, g, h, k, fun h => by omega, l.2⟩)
  · refine leaves_set _ (fun s hs => ?_)
    split
    · obtain ⟨a, b, c, d, e, f, g, h, k, l, m⟩ := hs
      exact ⟨a, b, c, d, e, f, g, h, k, l, fun h => by omega⟩
    · exact hs
  · exact leaves_pure _ (fun _ h => h)

theorem hubFields_left (dec : Codec) (fs : List Bytes) (u : HubINFO) (rest : List Bytes) : ∀ i, fs.drop i = rest →
    Leaves (HubKeeps fs u) (HubKeeps fs u) (HubKeeps fs u) (HubINFO.callFields dec fs.length i rest) := by
  induction rest with
  | nil => intro i _; exact leaves_pure _ (fun _ h => h)
  | cons f rest ih =>
    intro i hi
    unfold HubINFO.callFields
    have hf : fs[i]? = some f := by
      have : (fs.drop i)[0]? = some f := by rw [hi]; rfl
      simpa using this
    exact leaves_bind _ (hubField_left dec fs u i f hf) fun _ => ih (i + 1) (by rw [← List.drop_drop, hi]; rfl)

theorem hubINFO_left (dec : Codec) (u : HubINFO) (d : Bytes) :
    Leaves (HubKeeps (split d c!"$") u) (HubKeeps (split d c!"$") u) (fun _ => True) (HubINFO.call dec d) := by
  have hl := NmdcReads.splitMax_eq d c!"$" 12
  have hlen : (splitMax d c!"$" 13).length = min (split d c!"$").length 13 := by
    rw [hl]; split <;> simp <;> omega
  have h7 : (splitMax d c!"$" 13).getD 7 [] = (split d c!"$").getD 7 [] := by
    rw [hl]
    generalize split d c!"$" = l
    by_cases h : l.length ≤ 12
    · rw [if_pos h]; simp [List.take_of_length_le h]
    · rw [if_neg h]
      simp only [List.getD_eq_getElem?_getD]
      rw [List.getElem?_append_left (by simp; omega)]
      simp
  have hk : ∀ s, HubKeeps (splitMax d c!"$" 13) u s ↔ HubKeeps (split d c!"$") u s := by
    intro s
    unfold HubKeeps
    rw [h7, hlen]
    generalize (split d c!"$").length = k
    have e : ∀ j, j ≤ 9 → (min k 13 ≤ j ↔ k ≤ j) := by omega
    have e' : min k 13 ≠ 11 ↔ k ≠ 11 := by omega
    simp only [e 1 (by omega), e 2 (by omega), e 3 (by omega), e 4 (by omega), e 5 (by omega), e 6 (by omega), e 7 (by omega), e 8 (by omega),
      e 9 (by omega), e']
  intro s hs
  have := hubFields_left dec (splitMax d c!"$" 13) u _ 0 rfl s ((hk s).mpr hs)
  exact ⟨fun _ _ => trivial, fun t h => (hk _).mp (this.2 t h)⟩

omit [HtmlEntities] in
theorem quantum_err (src : Bytes) : ∀ (acc : List Nat) (e : Err), Base32.quantum acc src = .err e → e = Base32.corrupt := by
  induction src with
  | nil => intro acc e h; unfold Base32.quantum at h; split at h <;> cases h
  | cons c src ih =>
    intro acc e h
    unfold Base32.quantum at h
    split at h
    · cases h
    · split at h
      · split at h
        · cases h; rfl
        · split at h
          · cases h; rfl
          · split at h
            · cases h; rfl
            · cases h
      · split at h
        · cases h; rfl
        · exact ih _ _ h

omit [HtmlEntities] in
theorem decodeLoop_err (n : Nat) : ∀ (src : Bytes) (_ : src.length ≤ n) (room : Nat) (e : Err),
    Base32.decodeLoop room src = .err e → e = Base32.corrupt := by
  induction n with
  | zero =>
    intro src hn room e h
    obtain rfl : src = [] := List.length_eq_zero_iff.mp (by omega)
    unfold Base32.decodeLoop at h
    cases h
  | succ n ih =>
    intro src hn room e h
    unfold Base32.decodeLoop at h
    split at h
    · cases h
    · rename_i hs
      split at h
      · rename_i hq; cases h; exact quantum_err _ _ _ hq
      · cases h
      · rename_i ds r ed hq
        have hl := (Base32.quantum_length hq).2 (by simp) hs
        simp only at h
        split at h
        · cases h
        · split at h
          · cases h
          · cases hr : Base32.decodeLoop (room - 5) r with
            | ok t => rw [hr] at h; cases h
            | panic => rw [hr] at h; cases h
            | err e' => rw [hr] at h; cases h; exact ih _ (by omega) _ _ hr

/-- What a search leaves of the previous one. -/
def SearchKeeps (u : Search) (d : Bytes) (s : Search) : Prop :=
  (b!"Hub:" <+: d → s.address = u.address) ∧ (¬ b!"Hub:" <+: d → s.user = u.user) ∧
  ((split (NmdcReuse.after c!" " d) c!"?")[2]? = some [] → s.size = u.size) ∧ s.pattern = u.pattern ∧ s.tth = u.tth

theorem unmarshalBase32_other (buf t : Bytes) : Hash.unmarshalBase32 buf ≠ .err (.unknownEncoding t) := by
  unfold Hash.unmarshalBase32
  cases h : Base32.decode 24 buf with
  | ok b => simp only; split <;> simp
  | err e =>
    have := decodeLoop_err _ _ (Nat.le_refl _) _ _ h
    simp [this, Base32.corrupt]
  | panic => simp

theorem newHash_other {σ : Type} (buf t : Bytes) {g : Hash → Res σ} (h : (Hash.unmarshalBase32 buf >>= fun h => g h) = .err (.unknownEncoding t)) :
    ∃ h, g h = .err (.unknownEncoding t) := by
  cases hu : Hash.unmarshalBase32 buf with
  | ok b => rw [hu] at h; exact ⟨b, h⟩
  | panic => rw [hu] at h; cases h
  | err e => rw [hu] at h; cases h; exact absurd hu (unmarshalBase32_other _ _)

theorem searchString_left (dec : Codec) (u : Search) (d x : Bytes) (hx : x = NmdcReuse.after c!" " d) :
    Leaves (SearchKeeps u d) (SearchKeeps u d) (fun _ => True) (Search.callString dec x) := by
  unfold Search.callString
  have hs := NmdcReads.splitMax_eq x c!"?" 4
  generalize splitMax x c!"?" 5 = l at hs
  split
  · rename_i f0 f1 f2 f3 f4
    have h2 : (split x c!"?")[2]? = some f2 := by
      have := congrArg (·[2]?) hs
      simp only [List.getElem?_cons_succ, List.getElem?_cons_zero] at this
      rw [this]
      by_cases h : (split x c!"?").length ≤ 4
      · have := congrArg List.length hs
        simp [if_pos h] at this
        omega
      · rw [List.getElem?_append_left (by simp; omega)]
        simp
    store; store
    refine leaves_bind (SearchKeeps u d) ?_ fun _ => ?_
    · unfold Search.callSize
      split
      · exact leaves_pure _ (fun _ h => h)
      · rename_i c t
        have : (split (NmdcReuse.after c!" " d) c!"?")[2]? ≠ some [] := by rw [← hx, h2]; simp
        split
        · same
          exact leaves_set _ (fun s ⟨a, b, _, e⟩ => ⟨a, b, fun h => absurd h this, e⟩)
        · exact leaves_assign _ _ _ (fun _ s ⟨a, b, _, e⟩ => ⟨a, b, fun h => absurd h this, e⟩)
            (fun _ s ⟨a, b, _, e⟩ => ⟨a, b, fun h => absurd h this, e⟩)
    · same; put
      unfold Search.callTarget
      split
      · same; same
        refine leaves_full (fun _ _ _ _ _ => trivial) (fun s t h => ?_)
        rw [newHash_full] at h
        obtain ⟨_, h⟩ := newHash_other _ _ h
        cases h
      · last
  · exact leaves_run _ (fun _ _ => trivial) (fun _ h => h)

theorem search_left (dec : Codec) (u : Search) (d : Bytes) :
    Leaves (SearchKeeps u d) (SearchKeeps u d) (fun _ => True) (Search.call dec d) := by
  unfold Search.call
  refine leaves_step (fun _ h => h) fun i hi => ?_
  have hi : indexByte d c!" " = some i := by
    revert hi; unfold must; cases indexByte d c!" " <;> simp
  obtain ⟨h1, -, -⟩ := NmdcReuse.after_some hi
  refine leaves_step (fun _ h => h) fun x hx => ?_
  rw [h1] at hx
  cases hx
  have hh := NmdcReuse.hub_prefix hi
  split
  · rename_i hp
    same; same
    exact leaves_put (fun s ⟨a, _, b⟩ => ⟨a, fun h => absurd (hh.mp hp) h, b⟩) (searchString_left dec u d _ rfl)
  · rename_i hp
    exact leaves_put (fun s ⟨_, a, b⟩ => ⟨fun h => absurd (hh.mpr h) hp, a, b⟩) (searchString_left dec u d _ rfl)

/-- What a search result leaves of the previous one; `hub` is the line from the hub on. -/
def ResultKeeps (u : SR) (hub : Bytes) (s : SR) : Prop :=
  (b!"TTH:" <+: hub → s.hubName = u.hubName) ∧ (¬ b!"TTH:" <+: hub → s.tth = u.tth) ∧ s.dst = u.dst

theorem slots_left (u : SR) (hub slots : Bytes) :
    Leaves (ResultKeeps u hub) (ResultKeeps u hub) (ResultKeeps u hub) (SR.callSlots slots) := by
  unfold SR.callSlots
  same; store; same
  exact leaves_assign _ _ _ (fun _ _ h => h) (fun _ _ h => h)

theorem tail_left (dec : Codec) (u : SR) (path slots hub : Bytes) :
    Leaves (ResultKeeps u hub) (ResultKeeps u hub) (fun _ => True) (SR.callTail dec path slots hub) := by
  unfold SR.callTail
  same; put
  refine leaves_bind _ (slots_left u hub slots) fun _ => ?_
  refine leaves_bind (ResultKeeps u hub) ?_ fun r => ?_
  · unfold SR.callSource
    split
    · rename_i hp
      have hp := hasPrefix_iff.mp hp
      same; same; same; same; same; same
      refine leaves_bind (ResultKeeps u hub) ?_ fun _ => leaves_pure _ (fun _ h => h)
      refine leaves_full (fun s a s' hs h => ?_) (fun s t h => ?_)
      · rw [newHash_full] at h
        obtain ⟨x, -, h⟩ := Res.bind_eq_ok.mp h
        cases h
        exact ⟨hs.1, fun h => absurd hp h, hs.2.2⟩
      · rw [newHash_full] at h
        obtain ⟨_, h⟩ := newHash_other _ _ h
        cases h
    · rename_i hp
      same; same; same
      exact leaves_put (fun s hs => ⟨fun h => absurd (hasPrefix_iff.mpr h) hp, hs.2⟩) (leaves_pure _ (fun _ h => h))
  · unfold SR.callTarget
    same; put; same
    split
    · exact leaves_pure _ (fun _ _ => trivial)
    · same; last

/-- The result is a directory. -/
def lineDir (d : Bytes) : Bool := (SR.dirSplit ((NmdcReuse.after c!" " d).takeWhile (· ≠ 5))).isSome

omit [HtmlEntities] in
theorem must_ok {x : Option Nat} {e : Err} {i : Nat} (h : must x e = .ok i) : x = some i := by
  unfold must at h; cases x <;> simp_all

theorem sr_left (dec : Codec) (u : SR) (d : Bytes) :
    Leaves (ResultKeeps u (NmdcReuse.srHub d (lineDir d))) (ResultKeeps u (NmdcReuse.srHub d (lineDir d))) (fun _ => True) (SR.call dec d) := by
  unfold SR.call
  refine leaves_step (fun _ h => h) fun i hi => ?_
  obtain ⟨h1, -, -⟩ := NmdcReuse.after_some (must_ok hi)
  same
  refine leaves_step (fun _ h => h) fun x hx => ?_
  rw [h1] at hx
  cases hx
  put
  refine leaves_step (fun _ h => h) fun j hj => ?_
  obtain ⟨h4, h5, -⟩ := NmdcReuse.after_some (must_ok hj)
  refine leaves_step (fun _ h => h) fun x hx => ?_
  rw [h4] at hx
  cases hx
  unfold NmdcReuse.srHub lineDir
  rw [← h5]
  cases SR.dirSplit ((NmdcReuse.after c!" " d).take j) with
  | some ps =>
    simp only [Option.isSome_some, if_true]
    put
    exact tail_left dec u _ _ _
  | none =>
    simp only [Option.isSome_none, Bool.false_eq_true, if_false]
    generalize NmdcReuse.after 5 (NmdcReuse.after c!" " d) = d1
    intro s hs
    have hf : Leaves (ResultKeeps u (NmdcReuse.after 5 d1)) (ResultKeeps u (NmdcReuse.after 5 d1)) (ResultKeeps u (NmdcReuse.after 5 d1))
        (SR.callFile d1) := by
      unfold SR.callFile
      put; same; same; same; store; same
      exact leaves_pure _ (fun _ h => h)
    show (∀ a, (Call.bind _ _ s).1 = .ok a → _) ∧ ∀ t, (Call.bind _ _ s).1 = .err (.unknownEncoding t) → ResultKeeps _ _ (Call.bind _ _ s).2
    refine ⟨fun _ _ => trivial, ?_⟩
    have g := hf s hs
    have ff := file_full d1 s
    unfold full at ff
    unfold Call.bind
    cases hc : (SR.callFile d1 s).1 with
    | err e => exact fun t h => g.2 t (by rw [hc]; show Res.err e = _; exact congrArg _ (by injection h))
    | panic => exact fun t h => (nomatch h)
    | ok p =>
      rw [hc] at ff
      have hp : p.2 = NmdcReuse.after 5 d1 := by
        simp only at ff
        obtain ⟨q, hq, ff⟩ := Res.bind_eq_ok.mp ff.symm
        simp only [Res.ok.injEq, Prod.mk.injEq] at ff
        have e : p.2 = q.2.2 := by rw [← ff.1]
        rw [e]
        unfold SR.fileSplit at hq
        cases hk : indexByte d1 5 with
        | none => rw [hk] at hq; cases hq
        | some k =>
          obtain ⟨h6, -, -⟩ := NmdcReuse.after_some hk
          rw [hk] at hq
          simp only [h6, Res.ok_bind] at hq
          cases hl : indexByte (d1.take k) c!" " with
          | none => rw [hl] at hq; cases hq
          | some l =>
            rw [hl] at hq
            obtain ⟨_, -, hq⟩ := Res.bind_eq_ok.mp hq
            obtain ⟨_, -, hq⟩ := Res.bind_eq_ok.mp hq
            cases hq
            rfl
      have := tail_left dec u ((NmdcReuse.after c!" " d).take j) p.1 p.2
      rw [hp] at this
      have := (this _ (g.1 p hc)).2
      rw [← hp] at this ⊢
      exact this

/-- What the line says of a result. -/
theorem sr_line (dec : Codec) {d : Bytes} {n : SR} (h : ({} : SR).unmarshal dec d = .ok n) :
    n.isDir = lineDir d ∧ n.tth.isSome = hasPrefix (NmdcReuse.srHub d (lineDir d)) b!"TTH:" := by
  have tail : ∀ {m r : SR} {path slots d : Bytes}, m.tth = none → SR.tail dec m path slots d = .ok r → r.isDir = m.isDir ∧ r.tth.isSome = hasPrefix d b!"TTH:" := by
    intro m r path slots d hm h
    unfold SR.tail at h
    obtain ⟨p, -, h⟩ := Res.bind_eq_ok.mp h
    obtain ⟨⟨f, t⟩, -, h⟩ := Res.bind_eq_ok.mp h
    obtain ⟨⟨a, b, c⟩, hs, h⟩ := Res.bind_eq_ok.mp h
    obtain ⟨⟨a', b'⟩, -, h⟩ := Res.bind_eq_ok.mp h
    simp only [Res.pure_eq, Res.ok.injEq] at h
    rw [← h]
    exact ⟨rfl, (NmdcReuse.source_ok dec hm hs).1⟩
  unfold SR.unmarshal at h
  cases hi : indexByte d c!" " with
  | none => rw [hi] at h; cases h
  | some i =>
    obtain ⟨h1, -, -⟩ := NmdcReuse.after_some hi
    rw [hi] at h
    simp only [h1] at h
    obtain ⟨name, -, h⟩ := Res.bind_eq_ok.mp h
    simp only [Res.ok_bind] at h
    cases hj : indexByte (NmdcReuse.after c!" " d) 5 with
    | none => rw [hj] at h; cases h
    | some j =>
      obtain ⟨h4, h5, -⟩ := NmdcReuse.after_some hj
      rw [hj] at h
      simp only [h4, Res.ok_bind] at h
      unfold NmdcReuse.srHub lineDir
      rw [← h5]
      cases hd : SR.dirSplit ((NmdcReuse.after c!" " d).take j) with
      | some ps =>
        rw [hd] at h
        exact tail rfl h
      | none =>
        rw [hd] at h
        simp only at h
        obtain ⟨p, hp, h⟩ := Res.bind_eq_ok.mp h
        unfold SR.fileSplit at hp
        cases hk : indexByte (NmdcReuse.after 5 (NmdcReuse.after c!" " d)) 5 with
        | none => rw [hk] at hp; cases hp
        | some k =>
          obtain ⟨h6, -, -⟩ := NmdcReuse.after_some hk
          rw [hk] at hp
          simp only [h6, Res.ok_bind] at hp
          cases hl : indexByte ((NmdcReuse.after 5 (NmdcReuse.after c!" " d)).take k) c!" " with
          | none => rw [hl] at hp; cases hp
          | some l =>
            rw [hl] at hp
            obtain ⟨_, -, hp⟩ := Res.bind_eq_ok.mp hp
            obtain ⟨_, -, hp⟩ := Res.bind_eq_ok.mp hp
            cases hp
            have := tail rfl h
            simpa using this

/-- What a user leaves of the previous one. -/
def InfoKeeps (u : MyINFO) (d : Bytes) (s : MyINFO) : Prop :=
  (NmdcReuse.tagged d = false → s.client.name = u.client.name ∧ s.extra = u.extra) ∧
  (NmdcReuse.hasKey c!"V" c!"v" d = false → s.client.version = u.client.version) ∧
  (NmdcReuse.hasKey c!"H" c!"h" d = false → s.hubsNormal = u.hubsNormal) ∧
  (NmdcReuse.hasHubs d = false → s.hubsRegistered = u.hubsRegistered ∧ s.hubsOperator = u.hubsOperator) ∧
  (NmdcReuse.hasKey c!"S" c!"s" d = false → s.slots = u.slots) ∧
  ((NmdcReuse.infoParts d).getD 2 [] = [] → s.conn = u.conn ∧ s.flag = u.flag) ∧
  ((NmdcReuse.infoParts d).getD 4 [] = [] → s.shareSize = u.shareSize)

/-- The error does not speak of the text encoding. -/
def Plain {α : Type} (r : Res α) : Prop := ∀ t, r ≠ .err (.unknownEncoding t)

theorem plain_bind {α β : Type} {x : Res α} {f : α → Res β} (h1 : Plain x) (h2 : ∀ a, Plain (f a)) : Plain (x >>= f) := by
  intro t h
  cases x with
  | ok a => exact h2 a t h
  | err e => cases h; exact h1 t rfl
  | panic => cases h

theorem plain_ok {α : Type} (a : α) : Plain (.ok a) := fun _ h => nomatch h
theorem plain_other {α : Type} (n : Nat) : Plain (α := α) (.err (.other n)) := fun _ h => nomatch h
theorem plain_map {α : Type} (r : Res α) (n : Nat) : Plain (mapErr r (.other n)) := by
  intro t h
  unfold mapErr at h
  cases r <;> cases h
theorem plain_slice (d : Bytes) (n : Nat) : Plain (sliceFrom d n) := by
  intro t h
  unfold sliceFrom at h
  split at h <;> cases h

theorem hubs_plain (m : MyINFO) (v : Bytes) : Plain (m.hubs v) := by
  unfold MyINFO.hubs
  split
  · exact plain_ok _
  · split
    · exact plain_bind (plain_map _ _) fun _ => plain_ok _
    · split
      · exact plain_bind (plain_map _ _) fun _ => plain_bind (plain_map _ _) fun _ => plain_bind (plain_map _ _) fun _ => plain_ok _
      · exact plain_other _

theorem letter_plain (m : MyINFO) (k : Byte) (v : Bytes) : Plain (m.letter k v) := by
  unfold MyINFO.letter
  split
  · exact plain_ok _
  · split
    · exact plain_ok _
    · split
      · exact hubs_plain _ _
      · split
        · exact plain_bind (plain_map _ _) fun _ => plain_ok _
        · exact plain_ok _

theorem tagFields_plain (fs : List Bytes) : ∀ (b : Bool) (c : Bytes) (m : MyINFO), Plain (MyINFO.tagFields b c m fs) := by
  induction fs with
  | nil => intro b c m; exact plain_ok _
  | cons f fs ih =>
    intro b c m
    unfold MyINFO.tagFields
    refine plain_bind ?_ fun _ => ih _ _ _
    unfold MyINFO.tagField
    split
    · exact plain_ok _
    · split
      · split
        · exact plain_ok _
        · exact plain_other _
      · split
        · exact plain_other _
        · refine plain_bind (plain_slice _ _) fun _ => ?_
          split
          · exact plain_bind (letter_plain _ _ _) fun _ => plain_ok _
          · exact plain_ok _

theorem desc_plain (m : MyINFO) (f : Bytes) : Plain (m.descField f) := by
  unfold MyINFO.descField
  simp only
  split
  · exact plain_ok _
  · refine plain_bind (plain_slice _ _) fun _ => ?_
    split
    · exact plain_other _
    · refine plain_bind ?_ fun _ => plain_ok _
      unfold MyINFO.unmarshalTag
      simp only
      split
      · exact plain_bind (plain_slice _ _) fun _ => plain_bind (plain_ok _) fun _ =>
          plain_bind (tagFields_plain _ _ _ _) fun _ => plain_ok _
      · exact plain_bind (plain_ok _) fun _ => plain_bind (tagFields_plain _ _ _ _) fun _ => plain_ok _

theorem desc_left (u : MyINFO) (d f1 : Bytes) (hf : f1 = (NmdcReuse.infoParts d).getD 0 []) :
    Leaves (InfoKeeps u d) (InfoKeeps u d) (InfoKeeps u d) (MyINFO.callDesc f1) := by
  refine leaves_full (fun s a s' hs h => ?_) (fun s => ?_)
  · rw [desc_full, NmdcReuse.descField_eq s s f1] at h
    cases hp : s.descField f1 with
    | err e => rw [hp] at h; cases h
    | panic => rw [hp] at h; cases h
    | ok p =>
      rw [hp] at h
      simp only [Res.ok_bind, Res.pure_eq, Res.ok.injEq, Prod.mk.injEq] at h
      obtain ⟨-, rfl⟩ := h
      generalize p.2.1 = r
      revert hs
      have ht : NmdcReuse.tagged d = decide (c!"<" ∈ f1) := by unfold NmdcReuse.tagged; rw [hf]
      unfold InfoKeeps NmdcReuse.hasKey NmdcReuse.hasHubs NmdcReuse.tagParts
      rw [ht, ← hf]
      unfold NmdcReuse.descMix NmdcReuse.tagMix
      simp only
      generalize split _ c!"," = fs
      rintro ⟨a, b, c, e, f, g, k⟩
      by_cases hm : c!"<" ∈ f1
      · simp only [hm, if_true, decide_true, Bool.true_and, Bool.true_eq_false, false_imp_iff, true_and] at *
        refine ⟨fun h => ?_, fun h => ?_, fun h => ?_, fun h => ?_, g, k⟩
        · simp only [h, Bool.false_eq_true, if_false]; exact b h
        · simp only [h, Bool.false_eq_true, if_false]; exact c h
        · simp only [h, Bool.false_eq_true, if_false]; exact e h
        · simp only [h, Bool.false_eq_true, if_false]; exact f h
      · simp only [hm, if_false, decide_false, Bool.false_and, true_imp_iff] at *
        exact ⟨a, b, c, e, f, g, k⟩
  · rw [desc_full]
    exact plain_bind (desc_plain _ _) fun _ => plain_ok _

theorem myINFO_left (dec : Codec) (u : MyINFO) (d : Bytes) :
    Leaves (InfoKeeps u d) (InfoKeeps u d) (fun _ => True) (MyINFO.call dec d) := by
  unfold MyINFO.call
  refine leaves_step (fun _ h => h) fun _ hp => ?_
  have hp : hasPrefix d b!"$ALL " = true := by
    split at hp
    · assumption
    · cases hp
  have hd : sliceFrom d 5 = .ok (NmdcReuse.after c!" " d) := by
    obtain ⟨t, rfl⟩ := hasPrefix_iff.mp hp
    rw [sliceFrom_ok (by simp)]
    simp [NmdcReuse.after, List.dropWhile]
  refine leaves_step (fun _ h => h) fun x hx => ?_
  rw [hd] at hx
  cases hx
  refine leaves_step (fun _ h => h) fun i hi => ?_
  obtain ⟨h1, -, -⟩ := NmdcReuse.after_some (must_ok hi)
  same
  refine leaves_step (fun _ h => h) fun x hx => ?_
  rw [h1] at hx
  cases hx
  put
  have hl : NmdcReuse.infoParts d = split (NmdcReuse.after c!" " (NmdcReuse.after c!" " d)) c!"$" := rfl
  generalize split (NmdcReuse.after c!" " (NmdcReuse.after c!" " d)) c!"$" = l at hl
  split
  · rename_i f1 f2 f3 f4 f5 f6
    unfold MyINFO.callFields
    refine leaves_bind _ (desc_left u d f1 (by rw [hl]; rfl)) fun p => ?_
    same; put
    split
    · refine leaves_put (fun s h => by split <;> exact h) ?_
      refine leaves_bind (InfoKeeps u d) ?_ fun _ => ?_
      · unfold MyINFO.callConn
        split
        · exact leaves_pure _ (fun _ h => h)
        · rename_i f hf
          have h2 : (NmdcReuse.infoParts d).getD 2 [] ≠ [] := by
            rw [hl]; intro h; simp at h; rw [h] at hf; cases hf
          have k : ∀ s s' : MyINFO, InfoKeeps u d s → { s' with conn := s.conn, flag := s.flag } = s → InfoKeeps u d s' := by
            rintro s s' ⟨a, b, c, e, f, g, k⟩ h
            rw [← h] at a b c e f k
            exact ⟨a, b, c, e, f, fun h => absurd h h2, k⟩
          refine leaves_put (fun s h => k s _ h rfl) ?_
          same
          exact leaves_set _ (fun s h => k s _ h rfl)
      · same
        put
        exact leaves_set _ (fun _ _ => trivial)
    · exact leaves_run _ (fun _ _ => trivial) (fun _ h => h)
  · exact leaves_run _ (fun _ _ => trivial) (fun _ h => h)

/-! ## The same line once more -/

theorem again {α β : Type} {x : Res α} {f g : α → Res β} (h : ∀ a, x = .ok a → f a = g a) : (x >>= f) = (x >>= g) := by
  cases x with
  | ok a => exact h a rfl
  | err _ => rfl
  | panic => rfl

theorem chat_again (dec : Codec) {u s : ChatMessage} {d : Bytes} (h : d.head? ≠ some c!"<" → s.name = u.name) :
    s.unmarshal dec d = u.unmarshal dec d := by
  rw [NmdcReuse.chat_eq dec s, NmdcReuse.chat_eq dec u]
  refine again fun n _ => ?_
  unfold NmdcReuse.chat
  split
  · rfl
  · rename_i hc; rw [h hc]

theorem userCommand_again (dec : Codec) {u s : UserCommand} {d : Bytes}
    (h : (split (trimSpaceU d) c!" ").length ≤ 2 → s.path = u.path ∧ s.command = u.command) :
    s.unmarshal dec d = u.unmarshal dec d := by
  rw [NmdcReuse.userCommand_eq dec s, NmdcReuse.userCommand_eq dec u]
  refine again fun n _ => ?_
  unfold NmdcReuse.userCommand
  split
  · rename_i hc; rw [(h hc).1, (h hc).2]
  · rfl

theorem connectToMe_again (dec : Codec) {u s : ConnectToMe} {d : Bytes} (h : s.src = u.src ∧ s.secure = u.secure) :
    s.unmarshal dec d = u.unmarshal dec d := by
  rw [NmdcReuse.connectToMe_eq dec s, NmdcReuse.connectToMe_eq dec u]
  refine again fun n _ => ?_
  unfold NmdcReuse.connectToMe
  rw [h.1, h.2]

theorem adcGet_again (dec : Codec) {u s : ADCGet} {d : Bytes} (h : s.compressed = u.compressed ∧ s.downloaded = u.downloaded) :
    s.unmarshal dec d = u.unmarshal dec d := by
  rw [NmdcReuse.adcGet_eq dec s, NmdcReuse.adcGet_eq dec u]
  refine again fun n _ => ?_
  unfold NmdcReuse.adcGet
  rw [h.1, h.2]

theorem adcSnd_again (dec : Codec) {u s : ADCSnd} {d : Bytes} (h : s.compressed = u.compressed) :
    s.unmarshal dec d = u.unmarshal dec d := by
  rw [NmdcReuse.adcSnd_eq dec s, NmdcReuse.adcSnd_eq dec u]
  refine again fun n _ => ?_
  unfold NmdcReuse.adcSnd
  rw [h]

theorem hubINFO_again (dec : Codec) {u s : HubINFO} {d : Bytes} (h : HubKeeps (split d c!"$") u s) :
    s.unmarshal dec d = u.unmarshal dec d := by
  rw [NmdcReuse.hubINFO_eq dec s, NmdcReuse.hubINFO_eq dec u]
  refine again fun n _ => congrArg Res.ok ?_
  unfold NmdcReuse.hubINFO
  unfold HubKeeps at h
  obtain ⟨a, b, c, e, f, g, k, l, m, o, q⟩ := h
  have ite : ∀ {α : Type} {n k : Nat} {x y z : α}, (n ≤ k → y = z) → (if k < n then x else y) = if k < n then x else z := by
    intro α n k x y z h; split
    · rfl
    · exact h (by omega)
  have ite' : ∀ {α : Type} {p : Prop} [Decidable p] {x y z : α}, (¬ p → y = z) → (if p then x else y) = if p then x else z := by
    intro α p _ x y z h; split
    · rfl
    · rename_i hp; exact h hp
  simp only [ite a, ite b, ite c, ite e, ite f, ite g, ite k, ite' l, ite m, ite o, ite' q]

theorem search_again (dec : Codec) {u s : Search} {d : Bytes} (h : SearchKeeps u d s) : s.unmarshal dec d = u.unmarshal dec d := by
  rw [NmdcReuse.search_eq dec s, NmdcReuse.search_eq dec u]
  refine again fun n _ => congrArg Res.ok ?_
  unfold NmdcReuse.search
  obtain ⟨a, b, c, e, f⟩ := h
  have ite : ∀ {α : Type} {p : Prop} [Decidable p] {x y z : α}, (p → y = z) → (if p then y else x) = if p then z else x := by
    intro α p _ x y z h; split
    · rename_i hp; exact h hp
    · rfl
  have ite' : ∀ {α : Type} {p : Prop} [Decidable p] {x y z : α}, (¬ p → y = z) → (if p then x else y) = if p then x else z := by
    intro α p _ x y z h; split
    · rfl
    · rename_i hp; exact h hp
  simp only [ite a, ite' b, ite c, e, f]

theorem sr_again (dec : Codec) {u s : SR} {d : Bytes} (h : ResultKeeps u (NmdcReuse.srHub d (lineDir d)) s) :
    s.unmarshal dec d = u.unmarshal dec d := by
  rw [NmdcReuse.sr_eq dec s, NmdcReuse.sr_eq dec u]
  refine again fun n hn => congrArg Res.ok ?_
  obtain ⟨h1, h2⟩ := sr_line dec hn
  obtain ⟨a, b, c⟩ := h
  unfold NmdcReuse.sr
  rw [c]
  cases ht : n.tth with
  | none =>
    rw [ht] at h2
    have : ¬ b!"TTH:" <+: NmdcReuse.srHub d (lineDir d) := by
      intro h; rw [hasPrefix_iff.mpr h] at h2; cases h2
    simp [b this]
  | some x =>
    rw [ht] at h2
    have : b!"TTH:" <+: NmdcReuse.srHub d (lineDir d) := hasPrefix_iff.mp h2.symm
    simp [a this]

theorem myINFO_again (dec : Codec) {u s : MyINFO} {d : Bytes} (h : InfoKeeps u d s) : s.unmarshal dec d = u.unmarshal dec d := by
  rw [NmdcReuse.myINFO_eq dec s, NmdcReuse.myINFO_eq dec u]
  refine again fun n hn => congrArg Res.ok ?_
  obtain ⟨a, b, c, e, f, g, k⟩ := h
  have ite : ∀ {α : Type} {p : Prop} [Decidable p] {x y z : α}, (p → y = z) → (if p then y else x) = if p then z else x := by
    intro α p _ x y z h; split
    · rename_i hp; exact h hp
    · rfl
  have ite' : ∀ {α : Type} {p : Bool} {x y z : α}, (p = false → y = z) → (if p = true then x else y) = if p = true then x else z := by
    intro α p x y z h
    cases p
    · exact h rfl
    · rfl
  unfold NmdcReuse.myINFO
  simp only [ite' (fun h => (a h).1), ite' (fun h => (a h).2), ite' b, ite' c, ite' (fun h => (e h).1), ite' (fun h => (e h).2), ite' f,
    ite (fun h => (g h).1), ite (fun h => (g h).2), ite k]

/-! ## C98 -/

/-- A line that a decoder of the text encoding refuses is decoded once more into the same message, with another decoder: the result
is what it would be had the other decoder been there from the start. -/
theorem retry (dec dec' : Codec) (u : Msg) (d t : Bytes) (h : u.unmarshal dec d = .err (.unknownEncoding t)) :
    (Msg.left dec u d).unmarshal dec' d = u.unmarshal dec' d := by
  have hc : (Msg.call dec d u).1 = .err (.unknownEncoding t) := by
    have := call_value dec u d
    rw [h] at this
    unfold value at this
    cases hr : (Msg.call dec d u).1 with
    | ok _ => rw [hr] at this; cases this
    | panic => rw [hr] at this; cases this
    | err e => rw [hr] at this; cases this; rfl
  unfold Msg.left
  cases u with
  | chat m =>
    exact congrArg (fun r : Res ChatMessage => r >>= fun x => pure (Msg.chat x)) (chat_again dec' (leaves_end (chat_left dec m d) (fun _ => rfl) hc))
  | userCommand m =>
    exact congrArg (fun r : Res UserCommand => r >>= fun x => pure (Msg.userCommand x))
      (userCommand_again dec' (leaves_end (userCommand_left dec m d) (fun _ => ⟨rfl, rfl⟩) hc))
  | connectToMe m =>
    exact congrArg (fun r : Res ConnectToMe => r >>= fun x => pure (Msg.connectToMe x))
      (connectToMe_again dec' (leaves_end (connectToMe_left dec m d) ⟨rfl, rfl⟩ hc))
  | errMsg k m =>
    have : (ErrMsg.call dec d m).2 = m := leaves_end (errMsg_left dec m d) rfl hc
    exact congrArg (fun r : Option Bytes => (Msg.errMsg k r).unmarshal dec' d) this
  | hubINFO m =>
    exact congrArg (fun r : Res HubINFO => r >>= fun x => pure (Msg.hubINFO x))
      (hubINFO_again dec' (leaves_end (hubINFO_left dec m d) (by simp [HubKeeps]) hc))
  | adcGet m =>
    exact congrArg (fun r : Res ADCGet => r >>= fun x => pure (Msg.adcGet x))
      (adcGet_again dec' (leaves_end (adcGet_left dec m d) ⟨rfl, rfl⟩ hc))
  | adcSnd m =>
    exact congrArg (fun r : Res ADCSnd => r >>= fun x => pure (Msg.adcSnd x))
      (adcSnd_again dec' (leaves_end (adcSnd_left dec m d) rfl hc))
  | search m =>
    exact congrArg (fun r : Res Search => r >>= fun x => pure (Msg.search x))
      (search_again dec' (leaves_end (search_left dec m d) (by simp [SearchKeeps]) hc))
  | sr m =>
    exact congrArg (fun r : Res SR => r >>= fun x => pure (Msg.sr x))
      (sr_again dec' (leaves_end (sr_left dec m d) (by simp [ResultKeeps]) hc))
  | myINFO m =>
    exact congrArg (fun r : Res MyINFO => r >>= fun x => pure (Msg.myINFO x))
      (myINFO_again dec' (leaves_end (myINFO_left dec m d) (by simp [InfoKeeps]) hc))
  | _ => 
    rw [NmdcMessages.reuse_partial dec' d rfl, NmdcMessages.reuse_partial dec' d rfl]
    rfl

end Verif.Props.NmdcLeft
