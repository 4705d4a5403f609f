import Verif.Nmdc.Message

/-!
# Which decoders can panic: lemmas
-/

namespace Verif.Nmdc

open Verif.Go Verif.Tiger

theorem sliceFrom_ne {s : List α} {i : Nat} (h : i ≤ s.length) : sliceFrom s i ≠ .panic := by simp [sliceFrom_ok h]

theorem sliceTo_ne {s : List α} {i : Nat} (h : i ≤ s.length) : sliceTo s i ≠ .panic := by simp [sliceTo_ok h]

theorem at'_ne {s : List α} {i : Nat} (h : i < s.length) : at' s i ≠ .panic := by simp [at'_ok h]

theorem mapErr_ne {r : Res α} {e : Err} (h : r ≠ .panic) : mapErr r e ≠ .panic := by
  cases r <;> simp_all [mapErr]

theorem prefix_len {s p : Bytes} (h : hasPrefix s p = true) : p.length ≤ s.length :=
  List.IsPrefix.length_le (hasPrefix_iff.mp h)

theorem index_len {s p : Bytes} {i : Nat} (h : index s p = some i) : i + p.length ≤ s.length := by
  obtain ⟨a, b, rfl, rfl, -⟩ := index_some h
  simp

theorem slice_indexByte {s : Bytes} {c : Byte} {i : Nat} (h : indexByte s c = some i) : sliceFrom s (i + 1) ≠ .panic :=
  sliceFrom_ne (indexByte_lt h)

theorem slice_lastIndexByte {s : Bytes} {c : Byte} {i : Nat} (h : lastIndexByte s c = some i) : sliceFrom s (i + 1) ≠ .panic :=
  sliceFrom_ne (lastIndexByte_lt h)

theorem slice_prefix {s p : Bytes} {k : Nat} (h : hasPrefix s p = true) (hk : p.length = k) : sliceFrom s k ≠ .panic :=
  sliceFrom_ne (hk ▸ prefix_len h)

theorem slice_index {s p : Bytes} {i k : Nat} (h : index s p = some i) (hk : p.length = k) : sliceFrom s (i + k) ≠ .panic :=
  sliceFrom_ne (hk ▸ index_len h)

/-- One step of a proof that a decoder does not panic. -/
macro "np" : tactic => `(tactic| first
  | exact Res.noConfusion
  | (intro hnp; cases hnp; done)
  | exact str_unmarshal_ne_panic _ _
  | exact name_unmarshal_ne_panic _ _
  | exact mapErr_ne (atoiTrim_ne_panic _)
  | exact mapErr_ne (parseUin64Trim_ne_panic _)
  | exact mapErr_ne (str_unmarshal_ne_panic _ _)
  | exact atoiTrim_ne_panic _
  | exact parseUin64Trim_ne_panic _
  | (apply slice_indexByte; assumption)
  | (apply slice_lastIndexByte; assumption)
  | (apply slice_prefix; assumption; rfl)
  | (apply slice_index; assumption; rfl)
  | (refine Res.bind_ne_panic ?_ (fun a ha => ?_))
  | split
  | dsimp only)

theorem decodeRune_len {s : Bytes} {r n : Nat} (h : decodeRune s = some (r, n)) : n ≤ s.length := by
  obtain ⟨-, t, h1, -⟩ := decodeRune_some h
  have := congrArg List.length t
  simp only [List.length_append, List.length_drop] at this
  omega

theorem priv_ne [HtmlEntities] (dec : Codec) (m : PrivateMessage) (d : Bytes) : m.unmarshal dec d ≠ .panic := by
  unfold PrivateMessage.unmarshal
  repeat' np

theorem mcTo_ne [HtmlEntities] (dec : Codec) (m : MCTo) (d : Bytes) : m.unmarshal dec d ≠ .panic := by
  unfold MCTo.unmarshal
  repeat' np

theorem unmarshalPath_ne [HtmlEntities] (dec : Codec) (l : List Bytes) : unmarshalPath dec l ≠ .panic := by
  induction l with
  | nil => simp [unmarshalPath]
  | cons p ps ih =>
    unfold unmarshalPath
    split
    · exact ih
    · split
      · refine Res.bind_ne_panic ih (fun _ _ => by simp)
      · simp
      · exact absurd ‹_› (str_unmarshal_ne_panic _ _)

theorem userCommand_ne [HtmlEntities] (dec : Codec) (m : UserCommand) (d : Bytes) : m.unmarshal dec d ≠ .panic := by
  unfold UserCommand.unmarshal
  repeat' first | exact unmarshalPath_ne _ _ | np

theorem connectToMe_ne [HtmlEntities] (dec : Codec) (m : ConnectToMe) (d : Bytes) : m.unmarshal dec d ≠ .panic := by
  unfold ConnectToMe.unmarshal
  repeat' np

theorem revConnectToMe_ne [HtmlEntities] (dec : Codec) (m : RevConnectToMe) (d : Bytes) : m.unmarshal dec d ≠ .panic := by
  unfold RevConnectToMe.unmarshal
  repeat' np

theorem errMsg_ne [HtmlEntities] (dec : Codec) (m : Option Bytes) (d : Bytes) : ErrMsg.unmarshal dec m d ≠ .panic := by
  unfold ErrMsg.unmarshal
  repeat' np

theorem lockBody_ne (b : Bool) (d : Bytes) : Lock.body b d ≠ .panic := by
  unfold Lock.body
  repeat' np

theorem lock_ne (d : Bytes) : Lock.unmarshal d ≠ .panic := by
  unfold Lock.unmarshal
  repeat' first | exact lockBody_ne _ _ | np

theorem adcGetFlags_ne (l : List Bytes) (m : ADCGet) : adcGetFlags l m ≠ .panic := by
  induction l generalizing m with
  | nil => simp [adcGetFlags]
  | cons f fs ih =>
    unfold adcGetFlags
    repeat' first | exact ih _ | np

theorem cutSpace_ne (d : Bytes) : cutSpace d ≠ .panic := by
  unfold cutSpace
  repeat' np

theorem cutSpaceOpt_ne (d : Bytes) : cutSpaceOpt d ≠ .panic := by
  unfold cutSpaceOpt
  repeat' np

theorem adcGet_ne [HtmlEntities] (dec : Codec) (m : ADCGet) (d : Bytes) : m.unmarshal dec d ≠ .panic := by
  unfold ADCGet.unmarshal
  repeat' first | exact cutSpace_ne _ | exact cutSpaceOpt_ne _ | exact adcGetFlags_ne _ _ | np

theorem adcSnd_ne [HtmlEntities] (dec : Codec) (m : ADCSnd) (d : Bytes) : m.unmarshal dec d ≠ .panic := by
  unfold ADCSnd.unmarshal
  repeat' first | exact cutSpace_ne _ | exact cutSpaceOpt_ne _ | np

theorem direction_ne (d : Bytes) : Direction.unmarshal d ≠ .panic := by
  unfold Direction.unmarshal
  repeat' first | exact cutSpace_ne _ | np

theorem hubField_ne [HtmlEntities] (dec : Codec) (n i : Nat) (m : HubINFO) (f : Bytes) : HubINFO.field dec n i m f ≠ .panic := by
  unfold HubINFO.field
  repeat' np

theorem hubFields_ne [HtmlEntities] (dec : Codec) (n : Nat) (l : List Bytes) (i : Nat) (m : HubINFO) :
    HubINFO.fields dec n i m l ≠ .panic := by
  induction l generalizing i m with
  | nil => simp [HubINFO.fields]
  | cons f fs ih =>
    unfold HubINFO.fields
    exact Res.bind_ne_panic (hubField_ne _ _ _ _ _) (fun _ _ => ih _ _)

theorem hubINFO_ne [HtmlEntities] (dec : Codec) (m : HubINFO) (d : Bytes) : m.unmarshal dec d ≠ .panic :=
  hubFields_ne _ _ _ _ _

theorem namesAll_ne [HtmlEntities] (dec : Codec) (l : List Bytes) : Names.unmarshalAll dec l ≠ .panic := by
  induction l with
  | nil => simp [Names.unmarshalAll]
  | cons f fs ih =>
    unfold Names.unmarshalAll
    repeat' first | exact ih | np

theorem names_ne [HtmlEntities] (dec : Codec) (d : Bytes) : Names.unmarshal dec d ≠ .panic := by
  unfold Names.unmarshal
  simp only
  split
  · simp
  · exact namesAll_ne _ _

theorem userIPEntry_ne [HtmlEntities] (dec : Codec) (s : Bytes) : UserIP.entry dec s ≠ .panic := by
  unfold UserIP.entry
  repeat' np

theorem userIPEntries_ne [HtmlEntities] (dec : Codec) (l : List Bytes) : UserIP.entries dec l ≠ .panic := by
  induction l with
  | nil => simp [UserIP.entries]
  | cons f fs ih =>
    unfold UserIP.entries
    repeat' first | exact ih | exact userIPEntry_ne _ _ | np

theorem shortSearch_ne (d : Bytes) : shortSearch d ≠ .panic := by
  unfold shortSearch
  split
  · simp
  · rename_i h
    have h' : 39 < d.length := by omega
    repeat' first | exact at'_ne h' | exact Hash.unmarshal_ne_panic (by simp; omega) | exact sliceFrom_ne h' | np

theorem sa_ne (d : Bytes) : SA.unmarshal d ≠ .panic := by
  unfold SA.unmarshal
  repeat' first | exact shortSearch_ne _ | np

theorem sp_ne [HtmlEntities] (dec : Codec) (d : Bytes) : SP.unmarshal dec d ≠ .panic := by
  unfold SP.unmarshal
  repeat' first | exact shortSearch_ne _ | np

theorem fileSplit_ne (d : Bytes) : SR.fileSplit d ≠ .panic := by
  unfold SR.fileSplit
  repeat' np

theorem parseSlots_ne (d : Bytes) : SR.parseSlots d ≠ .panic := by
  unfold SR.parseSlots
  repeat' np

theorem parseSource_ne [HtmlEntities] (dec : Codec) (m : SR) (d : Bytes) : SR.parseSource dec m d ≠ .panic := by
  unfold SR.parseSource
  split
  · refine Res.bind_ne_panic (by np) (fun d' _ => ?_)
    split
    · simp
    · rename_i h
      have h1 : 39 < d'.length := by omega
      have h2 : 40 < d'.length := by omega
      repeat' first | exact at'_ne h1 | exact at'_ne h2 | exact Hash.unmarshal_ne_panic (by simp; omega) | exact sliceFrom_ne h2 | np
  · repeat' np

theorem parseTarget_ne [HtmlEntities] (dec : Codec) (m : SR) (d : Bytes) : SR.parseTarget dec m d ≠ .panic := by
  unfold SR.parseTarget
  repeat' np

theorem srTail_ne [HtmlEntities] (dec : Codec) (m : SR) (p s d : Bytes) : SR.tail dec m p s d ≠ .panic := by
  unfold SR.tail
  repeat' first | exact parseSlots_ne _ | exact parseSource_ne _ _ _ | exact parseTarget_ne _ _ _ | np

theorem sr_ne [HtmlEntities] (dec : Codec) (m : SR) (d : Bytes) : m.unmarshal dec d ≠ .panic := by
  unfold SR.unmarshal
  repeat' first | exact srTail_ne _ _ _ _ _ | exact fileSplit_ne _ | np

theorem myHubs_ne (m : MyINFO) (v : Bytes) : m.hubs v ≠ .panic := by
  unfold MyINFO.hubs
  repeat' np

theorem myLetter_ne (m : MyINFO) (k : Byte) (v : Bytes) : m.letter k v ≠ .panic := by
  unfold MyINFO.letter
  repeat' first | exact myHubs_ne _ _ | np

theorem myTagField_ne (b : Bool) (c : Bytes) (m : MyINFO) (f : Bytes) : MyINFO.tagField b c m f ≠ .panic := by
  unfold MyINFO.tagField
  repeat' first | exact myLetter_ne _ _ _ | np

theorem myTagFields_ne (l : List Bytes) (b : Bool) (c : Bytes) (m : MyINFO) : MyINFO.tagFields b c m l ≠ .panic := by
  induction l generalizing b c m with
  | nil => simp [MyINFO.tagFields]
  | cons f fs ih =>
    unfold MyINFO.tagFields
    exact Res.bind_ne_panic (myTagField_ne _ _ _ _) (fun _ _ => ih _ _ _)

theorem tagVersion_lt {t : Bytes} {i : Nat} (h : tagVersion t = some i) : i + 1 ≤ t.length := by
  unfold tagVersion at h
  split at h
  · have := index_len ‹_›
    simp at h this
    omega
  · have := index_len h
    simp at this
    omega

theorem myTag_ne (m : MyINFO) (t : Bytes) : m.unmarshalTag t ≠ .panic := by
  unfold MyINFO.unmarshalTag
  repeat' first | exact myTagFields_ne _ _ _ _ | exact sliceFrom_ne (tagVersion_lt ‹_›) | np

theorem myDesc_ne (m : MyINFO) (f : Bytes) : m.descField f ≠ .panic := by
  unfold MyINFO.descField
  repeat' first | exact myTag_ne _ _ | np

theorem myConn_ne [HtmlEntities] (dec : Codec) (m : MyINFO) (f : Bytes) : m.connField dec f ≠ .panic := by
  unfold MyINFO.connField
  repeat' np

theorem myFields_ne [HtmlEntities] (dec : Codec) (m : MyINFO) (a b c d e : Bytes) : MyINFO.fields dec m a b c d e ≠ .panic := by
  unfold MyINFO.fields
  repeat' first | exact myDesc_ne _ _ | exact myConn_ne _ _ _ | np

theorem myINFO_ne [HtmlEntities] (dec : Codec) (m : MyINFO) (d : Bytes) : m.unmarshal dec d ≠ .panic := by
  unfold MyINFO.unmarshal
  repeat' first | exact myFields_ne _ _ _ _ _ _ _ | np

/-! ## Chat -/

theorem chatScan_bound (s : Bytes) (pos base : Nat) (hb : base ≤ pos) {i off : Nat}
    (h : chatScan s pos base = .ok (i, off)) : i + off ≤ pos + s.length := by
  induction s generalizing pos base with
  | nil =>
    simp only [chatScan] at h
    split at h
    · cases h
    · simp at h; simp; omega
  | cons c s ih =>
    unfold chatScan at h
    simp only [List.length_cons]
    split at h
    · split at h
      · cases h
      · simp at h; omega
    · split at h
      · split at h
        · simp at h; omega
        · split at h
          · rename_i hd
            split at h
            · have := decodeRune_len hd
              simp at h; omega
            · have := ih (pos + 1) (pos + 1) (by omega) h
              omega
          · have := ih (pos + 1) (pos + 1) (by omega) h
            omega
      · have := ih (pos + 1) base (by omega) h
        omega

theorem chatScan_ne (s : Bytes) (pos base : Nat) : chatScan s pos base ≠ .panic := by
  induction s generalizing pos base with
  | nil => unfold chatScan; repeat' np
  | cons c s ih =>
    unfold chatScan
    repeat' first | exact ih _ _ | np

theorem chat_ne [HtmlEntities] (dec : Codec) (m : ChatMessage) (d : Bytes) : m.unmarshal dec d ≠ .panic := by
  unfold ChatMessage.unmarshal
  split
  · repeat' np
  · rename_i c d'
    split
    · have key : ∀ p : Nat × Nat, p.1 + p.2 ≤ d'.length → (do
          let name ← sliceTo d' p.1
          let rest ← sliceFrom d' (p.1 + p.2)
          if name.length > maxName then (.err .protocolViolation : Res ChatMessage)
          else do
            let n ← Name.unmarshal dec name
            let t ← Str.unmarshal dec rest
            pure { name := n, text := t }) ≠ .panic := by
        intro p hp
        repeat' first | exact sliceTo_ne (Nat.le_trans (Nat.le_add_right _ _) hp) | exact sliceFrom_ne hp | np
      split
      · exact key (0, 0) (Nat.zero_le _)
      · refine Res.bind_ne_panic (chatScan_ne _ _ _) (fun p hp => key p ?_)
        have := chatScan_bound d' 0 0 (Nat.le_refl _) (i := p.1) (off := p.2) hp
        omega
    · repeat' np

end Verif.Nmdc
