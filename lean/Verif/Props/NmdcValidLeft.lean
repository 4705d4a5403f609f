import Verif.Props.NmdcValid
import Verif.Nmdc.Left

/-! # The texts that failing decoders leave behind are UTF-8 -/

namespace Verif.Props.NmdcValid

open Verif.Go Verif.Nmdc Verif.Spec Verif.Nmdc.Call

/-- A part of a method that keeps a property of its receiver, however it ends. -/
structure Keeps {σ α : Type} (P : σ → Prop) (c : Call σ α) : Prop where
  keeps : ∀ s, P s → P (c s).2

section
variable {σ α β : Type} {P : σ → Prop}

theorem keeps_pure (a : α) : Keeps P (pure a : Call σ α) := ⟨fun _ h => h⟩

theorem keeps_run (r : Res α) : Keeps P (run r : Call σ α) := ⟨fun _ h => h⟩

theorem keeps_bind {x : Call σ α} {f : α → Call σ β} (hx : Keeps P x) (hf : ∀ a, Keeps P (f a)) : Keeps P (x >>= f) := by
  refine ⟨fun s hs => ?_⟩
  show P (Call.bind x f s).2
  unfold Call.bind
  have := hx.keeps s hs
  split
  · exact (hf _).keeps _ this
  · exact this
  · exact this

theorem keeps_bind_run {r : Res α} {f : α → Call σ β} (hf : ∀ a, r = .ok a → Keeps P (f a)) : Keeps P ((run r : Call σ α) >>= f) := by
  refine ⟨fun s hs => ?_⟩
  show P (Call.bind (run r) f s).2
  unfold Call.bind run
  split
  · rename_i h; exact (hf _ h).keeps _ hs
  · exact hs
  · exact hs

theorem keeps_set {f : σ → σ} (h : ∀ s, P s → P (f s)) : Keeps P (set f) := ⟨h⟩

theorem keeps_assign {f : α → σ → σ} {r : Res α} {v : α} (h : ∀ a s, P s → P (f a s)) : Keeps P (assign f r v) := by
  refine ⟨fun s hs => ?_⟩
  unfold assign
  split
  · exact h _ _ hs
  · exact h _ _ hs
  · exact hs

theorem mapErr_ok {r : Res α} {e : Err} {a : α} (h : mapErr r e = .ok a) : r = .ok a := by
  cases r <;> simp_all [mapErr]

variable [HtmlEntities] {dec : Codec}

theorem keeps_text {d : Bytes} {f : Bytes → Call σ β} (hf : ∀ t, IsUtf8 t → Keeps P (f t)) : Keeps P ((run (Str.unmarshal dec d) : Call σ Bytes) >>= f) :=
  keeps_bind_run fun t h => hf t (NmdcText.text_utf8 h)

theorem keeps_text' {d : Bytes} {e : Err} {f : Bytes → Call σ β} (hf : ∀ t, IsUtf8 t → Keeps P (f t)) :
    Keeps P ((run (mapErr (Str.unmarshal dec d) e) : Call σ Bytes) >>= f) :=
  keeps_bind_run fun t h => hf t (NmdcText.text_utf8 (mapErr_ok h))

theorem keeps_name {d : Bytes} {f : Bytes → Call σ β} (hf : ∀ t, IsUtf8 t → Keeps P (f t)) : Keeps P ((run (Name.unmarshal dec d) : Call σ Bytes) >>= f) :=
  keeps_bind_run fun t h => hf t (NmdcText.name_utf8 h)

end

/-- Go through the steps of a method. -/
macro "keep" : tactic => `(tactic| repeat' (first
  | exact keeps_pure _ | exact keeps_run _
  | (refine keeps_text ?_; intro _ _) | (refine keeps_text' ?_; intro _ _) | (refine keeps_name ?_; intro _ _)
  | (refine keeps_bind_run ?_; intro _ _) | (refine keeps_bind ?_ ?_) | (refine keeps_set ?_; intro s hs; simp_all [Valid, texts]; done)
  | (refine keeps_assign ?_; intro _ s hs; simp_all [Valid, texts]; done)
  | assumption | intro _ | split))

section
variable [HtmlEntities] (dec : Codec)

theorem chat_keeps (d : Bytes) : Keeps (fun m => Valid (.chat m)) (ChatMessage.call dec d) := by
  unfold ChatMessage.call; dsimp only; keep

theorem priv_keeps (d : Bytes) : Keeps (fun m => Valid (.priv m)) (PrivateMessage.call dec d) := by
  unfold PrivateMessage.call; keep

theorem mcTo_keeps (d : Bytes) : Keeps (fun m => Valid (.mcTo m)) (MCTo.call dec d) := by
  unfold MCTo.call; keep

theorem path_keeps (ps : List Bytes) : Keeps (fun m => Valid (.userCommand m)) (UserCommand.callPath dec ps) := by
  induction ps with
  | nil => exact keeps_pure _
  | cons p ps ih =>
    unfold UserCommand.callPath
    split
    · exact ih
    · refine keeps_text' fun t ht => keeps_bind (keeps_set fun s hs => ?_) fun _ => ih
      intro x hx
      simp only [texts, List.mem_cons, List.mem_append, List.not_mem_nil, or_false] at hx
      rcases hx with rfl | hx | rfl
      · exact hs _ (by simp [texts])
      · exact hs _ (by simp [texts, hx])
      · exact ht

theorem userCommand_keeps (d : Bytes) : Keeps (fun m => Valid (.userCommand m)) (UserCommand.call dec d) := by
  have := path_keeps dec
  unfold UserCommand.call; keep
  all_goals first | exact this _ | skip

theorem connectToMe_keeps (d : Bytes) : Keeps (fun m => Valid (.connectToMe m)) (ConnectToMe.call dec d) := by
  unfold ConnectToMe.call; keep

theorem revConnectToMe_keeps (d : Bytes) : Keeps (fun m => Valid (.revConnectToMe m)) (RevConnectToMe.call dec d) := by
  unfold RevConnectToMe.call; keep

theorem errMsg_keeps (k : ErrKind) (d : Bytes) : Keeps (fun m => Valid (.errMsg k m)) (ErrMsg.call dec d) := by
  unfold ErrMsg.call
  refine keeps_text fun t ht => keeps_set fun s hs => ?_
  split
  · intro x hx
    simp [texts] at hx
    rw [hx]; exact ht
  · exact hs

theorem hubField_keeps (n i : Nat) (f : Bytes) : Keeps (fun m => Valid (.hubINFO m)) (HubINFO.callField dec n i f) := by
  unfold HubINFO.callField
  split
  case h_11 =>
    refine keeps_set fun s hs => ?_
    split <;> exact hs
  all_goals keep

theorem hubFields_keeps (n : Nat) (fs : List Bytes) : ∀ i, Keeps (fun m => Valid (.hubINFO m)) (HubINFO.callFields dec n i fs) := by
  induction fs with
  | nil => intro i; exact keeps_pure _
  | cons f fs ih => intro i; exact keeps_bind (hubField_keeps dec n i f) fun _ => ih _

theorem entries_keeps (bs : List Bytes) : Keeps (fun m => Valid (.userIP m)) (UserIP.callEntries dec bs) := by
  induction bs with
  | nil => exact keeps_pure _
  | cons b bs ih =>
    refine keeps_bind_run fun a ha => keeps_bind (keeps_set fun s hs => ?_) fun _ => ih
    intro x hx
    simp only [texts, List.map_append, List.mem_append] at hx
    rcases hx with hx | hx
    · exact hs _ hx
    · simp at hx
      subst hx
      have : ∃ n, Name.unmarshal dec n = .ok a.name := by
        unfold UserIP.entry at ha
        dsimp only at ha
        split at ha
        · simp only [Res.bind_eq_ok, Res.pure_eq] at ha
          obtain ⟨_, _, p, _, n, hn, ha⟩ := ha
          cases ha
          exact ⟨_, hn⟩
        · simp only [Res.bind_eq_ok, Res.pure_eq] at ha
          obtain ⟨p, _, n, hn, ha⟩ := ha
          cases ha
          exact ⟨_, hn⟩
      obtain ⟨n, hn⟩ := this
      exact NmdcText.name_utf8 hn

theorem userIP_keeps (d : Bytes) : Keeps (fun m => Valid (.userIP m)) (UserIP.call dec d) :=
  keeps_bind (keeps_set fun s hs => by intro t ht; simp [texts] at ht) fun _ => entries_keeps dec _

omit [HtmlEntities] in
theorem flags_keeps (fs : List Bytes) : Keeps (fun m => Valid (.adcGet m)) (ADCGet.callFlags fs) := by
  induction fs with
  | nil => exact keeps_pure _
  | cons f fs ih => unfold ADCGet.callFlags; keep

theorem adcGet_keeps (d : Bytes) : Keeps (fun m => Valid (.adcGet m)) (ADCGet.call dec d) := by
  have := flags_keeps
  unfold ADCGet.call; keep
  all_goals exact this _

theorem adcSnd_keeps (d : Bytes) : Keeps (fun m => Valid (.adcSnd m)) (ADCSnd.call dec d) := by
  unfold ADCSnd.call; keep

theorem search_target_keeps (typ : Nat) (f : Bytes) : Keeps (fun m => Valid (.search m)) (Search.callTarget dec typ f) := by
  unfold Search.callTarget
  split
  · refine keeps_bind_run fun _ _ => keeps_bind_run fun _ _ => ⟨fun s hs => hs⟩
  · refine keeps_text fun t ht => keeps_set fun s hs => ?_
    intro x hx
    simp only [texts, List.mem_cons, List.not_mem_nil, or_false] at hx
    rcases hx with rfl | rfl
    · exact hs _ (by simp [texts])
    · exact pattern_utf8 ht

omit [HtmlEntities] in
theorem size_keeps (f : Bytes) : Keeps (fun m => Valid (.search m)) (Search.callSize f) := by
  unfold Search.callSize; keep

theorem string_keeps (d : Bytes) : Keeps (fun m => Valid (.search m)) (Search.callString dec d) := by
  have := search_target_keeps dec
  have := size_keeps
  unfold Search.callString; keep
  all_goals first | exact size_keeps _ | exact search_target_keeps dec _ _

theorem search_keeps (d : Bytes) : Keeps (fun m => Valid (.search m)) (Search.call dec d) := by
  unfold Search.call; keep
  all_goals exact string_keeps dec _

omit [HtmlEntities] in
theorem slots_keeps (d : Bytes) : Keeps (fun m => Valid (.sr m)) (SR.callSlots d) := by
  unfold SR.callSlots; keep

theorem source_keeps (d : Bytes) : Keeps (fun m => Valid (.sr m)) (SR.callSource dec d) := by
  unfold SR.callSource; keep
  all_goals exact ⟨fun s hs => hs⟩

theorem target_keeps (d : Bytes) : Keeps (fun m => Valid (.sr m)) (SR.callTarget dec d) := by
  unfold SR.callTarget; keep

theorem tail_keeps (p sl d : Bytes) : Keeps (fun m => Valid (.sr m)) (SR.callTail dec p sl d) := by
  unfold SR.callTail; keep
  all_goals first | exact slots_keeps _ | exact source_keeps dec _ | exact target_keeps dec _

omit [HtmlEntities] in
theorem file_keeps (d : Bytes) : Keeps (fun m => Valid (.sr m)) (SR.callFile d) := by
  unfold SR.callFile; keep

theorem sr_keeps (d : Bytes) : Keeps (fun m => Valid (.sr m)) (SR.call dec d) := by
  unfold SR.call; keep
  all_goals first | exact slots_keeps _ | exact source_keeps dec _ | exact target_keeps dec _ | exact file_keeps _ | exact tail_keeps dec _ _ _

theorem sp_keeps (d : Bytes) : Keeps (fun m => Valid (.sp m)) (SP.call dec d) := by
  unfold SP.call callShort; keep
  all_goals exact ⟨fun s hs => hs⟩

omit [HtmlEntities] in
theorem hubs_keeps (v : Bytes) : Keeps (fun m => Valid (.myINFO m)) (MyINFO.callHubs v) := by
  unfold MyINFO.callHubs; keep

omit [HtmlEntities] in
theorem letter_keeps (k : Byte) (v : Bytes) : Keeps (fun m => Valid (.myINFO m)) (MyINFO.callLetter k v) := by
  unfold MyINFO.callLetter; keep
  all_goals exact hubs_keeps _

omit [HtmlEntities] in
theorem tagField_keeps (b : Bool) (c f : Bytes) : Keeps (fun m => Valid (.myINFO m)) (MyINFO.callTagField b c f) := by
  unfold MyINFO.callTagField; keep
  all_goals exact letter_keeps _ _

omit [HtmlEntities] in
theorem tagFields_keeps (fs : List Bytes) : ∀ b c, Keeps (fun m => Valid (.myINFO m)) (MyINFO.callTagFields b c fs) := by
  induction fs with
  | nil => intro b c; exact keeps_pure _
  | cons f fs ih => intro b c; exact keeps_bind (tagField_keeps b c f) fun _ => ih _ _

omit [HtmlEntities] in
theorem desc_keeps (f : Bytes) : Keeps (fun m => Valid (.myINFO m)) (MyINFO.callDesc f) := by
  unfold MyINFO.callDesc MyINFO.callTag; keep
  all_goals exact tagFields_keeps _ _ _

theorem conn_keeps (f : Bytes) : Keeps (fun m => Valid (.myINFO m)) (MyINFO.callConn dec f) := by
  unfold MyINFO.callConn; keep

omit [HtmlEntities] in
theorem sizeField_valid (m : MyINFO) (f : Bytes) (h : Valid (.myINFO m)) : Valid (.myINFO (m.sizeField f)) := by
  unfold MyINFO.sizeField
  repeat (first | exact h | split)

theorem myINFO_keeps (d : Bytes) : Keeps (fun m => Valid (.myINFO m)) (MyINFO.call dec d) := by
  unfold MyINFO.call MyINFO.callFields; keep
  all_goals first
    | exact tagFields_keeps _ _ _ | exact desc_keeps _ | exact conn_keeps dec _ | exact keeps_set fun s hs => sizeField_valid s _ hs
    | (refine keeps_set fun s hs => ?_; split <;> exact hs)

omit [HtmlEntities] in
theorem atEnd_keeps {σ : Type} {P : σ → Prop} {r : Res σ} (h : ∀ a, r = .ok a → P a) : Keeps P (atEnd r) :=
  keeps_bind_run fun a ha => keeps_set fun _ _ => h a ha

/-- **What is left behind.**  Whether a decoder succeeds or fails, in whatever place, it leaves texts that are UTF-8 if they were before. -/
theorem valid_left (m : Msg) (d : Bytes) (h : Valid m) : Valid (m.left dec d) := by
  unfold Msg.left
  cases m
  case chat m => exact (chat_keeps dec d).keeps m h
  case priv m => exact (priv_keeps dec d).keeps m h
  case mcTo m => exact (mcTo_keeps dec d).keeps m h
  case userCommand m => exact (userCommand_keeps dec d).keeps m h
  case connectToMe m => exact (connectToMe_keeps dec d).keeps m h
  case revConnectToMe m => exact (revConnectToMe_keeps dec d).keeps m h
  case errMsg k m => exact (errMsg_keeps dec k d).keeps m h
  case name k m =>
    refine (atEnd_keeps (P := fun x => Valid (.name k x)) (fun a ha => ?_)).keeps m h
    intro t ht; simp [texts] at ht; rw [ht]; exact NmdcText.name_utf8 ha
  case text k m =>
    refine (atEnd_keeps (P := fun x => Valid (.text k x)) (fun a ha => ?_)).keeps m h
    intro t ht; simp [texts] at ht; rw [ht]; exact NmdcText.text_utf8 ha
  case names k m =>
    refine (atEnd_keeps (P := fun x => Valid (.names k x)) (fun a ha => ?_)).keeps m h
    exact valid_read (old := .names k m) (dec := dec) (d := d) h (by
      show (do let r ← Names.unmarshal dec d; pure (Msg.names k r)) = _
      rw [ha]; rfl)
  case hubINFO m => exact (hubFields_keeps dec _ _ 0).keeps m h
  case userIP m => exact (userIP_keeps dec d).keeps m h
  case adcGet m => exact (adcGet_keeps dec d).keeps m h
  case adcSnd m => exact (adcSnd_keeps dec d).keeps m h
  case search m => exact (search_keeps dec d).keeps m h
  case sr m => exact (sr_keeps dec d).keeps m h
  case sp m => exact (sp_keeps dec d).keeps m h
  case myINFO m => exact (myINFO_keeps dec d).keeps m h
  all_goals (intro t ht; simp [texts, Msg.call, Call.on] at ht)

end

end Verif.Props.NmdcValid
