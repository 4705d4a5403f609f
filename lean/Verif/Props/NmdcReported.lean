import Verif.Props.NmdcRetry

/-!
# A line that some text encoding decodes is not lost (C99)
-/

namespace Verif.Props.NmdcReported

open Verif.Go Verif.Nmdc Verif.Tiger Verif.Nmdc.Call Verif.Lineproto Verif.Props.NmdcReader Verif.Props.NmdcReaderHooks Verif.Props.NmdcLeft
open Verif.Spec hiding value

set_option linter.unusedSectionVars false
variable [HtmlEntities]

/-- A decoder that turns any bytes into some bytes; the result need not be UTF-8. -/
def Total (dec : Codec) : Prop := ∀ f, dec = some f → ∀ s, f s ≠ none

/-! ## Two calls side by side -/

section
variable {σ α β : Type} {H : Err → Prop} {V : α → α → Prop} {W : β → β → Prop}

/-- Whenever the second call succeeds, the first succeeds too, with a related result, or fails with an error in `H`; whatever the
receivers are. -/
def Follows (H : Err → Prop) (V : α → α → Prop) (c1 c2 : Call σ α) : Prop :=
  ∀ s1 s2 a2, (c2 s2).1 = .ok a2 → (∃ a1, (c1 s1).1 = .ok a1 ∧ V a1 a2) ∨ ∃ e, (c1 s1).1 = .err e ∧ H e

theorem fo_bind (V : α → α → Prop) {x1 x2 : Call σ α} {f1 f2 : α → Call σ β} (h1 : Follows H V x1 x2)
    (h2 : ∀ a1 a2, V a1 a2 → Follows H W (f1 a1) (f2 a2)) : Follows H W (x1 >>= f1) (x2 >>= f2) := by
  intro s1 s2 b2 h
  have h : (Call.bind x2 f2 s2).1 = .ok b2 := h
  show (∃ a1, (Call.bind x1 f1 s1).1 = .ok a1 ∧ _) ∨ ∃ e, (Call.bind x1 f1 s1).1 = .err e ∧ H e
  unfold Call.bind at h ⊢
  cases hx : (x2 s2).1 with
  | err e => rw [hx] at h; cases h
  | panic => rw [hx] at h; cases h
  | ok a2 =>
    rw [hx] at h
    rcases h1 s1 s2 a2 hx with ⟨a1, h3, hv⟩ | ⟨e, h3, he⟩
    · rw [h3]; exact h2 a1 a2 hv _ _ _ h
    · rw [h3]; exact Or.inr ⟨e, rfl, he⟩

theorem fo_run {r : Res α} : Follows (σ := σ) H Eq (run r) (run r) := fun _ _ a h => Or.inl ⟨a, h, rfl⟩

theorem fo_same {r : Res α} {f1 f2 : α → Call σ β} (h : ∀ a, Follows H W (f1 a) (f2 a)) : Follows H W (run r >>= f1) (run r >>= f2) :=
  fo_bind Eq fo_run fun _ _ e => e ▸ h _

theorem fo_pure {a1 a2 : α} (h : V a1 a2) : Follows (σ := σ) H V (pure a1) (pure a2) :=
  fun _ _ _ e => Or.inl ⟨a1, rfl, by cases e; exact h⟩

theorem fo_skip {a : α} {f1 f2 : α → Call σ β} (h : Follows H W (f1 a) (f2 a)) : Follows H W (pure a >>= f1) (pure a >>= f2) :=
  h

theorem fo_set {f1 f2 : σ → σ} {V : Unit → Unit → Prop} (h : V () ()) : Follows H V (set f1) (set f2) := fun _ _ _ _ => Or.inl ⟨(), rfl, h⟩

theorem fo_put {f1 f2 : σ → σ} {g1 g2 : Unit → Call σ β} (h : Follows H W (g1 ()) (g2 ())) :
    Follows H W (set f1 >>= g1) (set f2 >>= g2) := fo_bind (fun _ _ => True) (fo_set trivial) fun _ _ _ => h

theorem fo_assign {f : α → σ → σ} {r : Res α} {v : α} {V : Unit → Unit → Prop} (h : V () ()) : Follows H V (assign f r v) (assign f r v) := by
  intro s1 s2 a2 e
  unfold assign at e ⊢
  cases r with
  | ok a => exact Or.inl ⟨(), rfl, h⟩
  | err e' => cases e
  | panic => cases e

theorem fo_store {f : α → σ → σ} {r : Res α} {v : α} {g1 g2 : Unit → Call σ β} (h : Follows H W (g1 ()) (g2 ())) :
    Follows H W (assign f r v >>= g1) (assign f r v >>= g2) := fo_bind (fun _ _ => True) (fo_assign trivial) fun _ _ _ => h

theorem fo_state {c : Call σ α} (h : ∀ s1 s2, (c s1).1 = (c s2).1) : Follows H Eq c c :=
  fun s1 s2 a e => Or.inl ⟨a, by rw [h s1 s2]; exact e, rfl⟩

theorem fo_err {e : Err} {c1 : Call σ α} : Follows H V c1 (run (.err e)) := fun _ _ _ h => nomatch h

end

/-- An error that `OnUnknownEncoding` is called for. -/
def Enc (e : Err) : Prop := ∃ t, e = .unknownEncoding t

theorem run_total {dec : Codec} (hd : Total dec) (s : Bytes) : ∃ t, dec.run s = .ok t := by
  cases dec with
  | none => exact ⟨s, rfl⟩
  | some f =>
    cases hf : f s with
    | none => exact absurd hf (hd f rfl s)
    | some t => exact ⟨t, by simp [Codec.run, hf]⟩

theorem str_follows {dec D : Codec} (hd : Total dec) {d a : Bytes} (h : Str.unmarshal D d = .ok a) :
    (∃ b, Str.unmarshal dec d = .ok b) ∨ ∃ e, Str.unmarshal dec d = .err e ∧ Enc e := by
  unfold Str.unmarshal at h ⊢
  split at h
  · cases h
  · rename_i h0
    obtain ⟨t, ht⟩ := run_total hd (unescapeBytes d)
    rw [if_neg h0, ht]
    simp only [Res.ok_bind]
    split
    · exact Or.inl ⟨_, rfl⟩
    · exact Or.inr ⟨_, rfl, _, rfl⟩

theorem name_follows {dec D : Codec} (hd : Total dec) {d a : Bytes} (h : Name.unmarshal D d = .ok a) :
    (∃ b, Name.unmarshal dec d = .ok b) ∨ ∃ e, Name.unmarshal dec d = .err e ∧ Enc e := by
  unfold Name.unmarshal at h ⊢
  split at h
  · cases h
  · rename_i h0
    split at h
    · cases h
    · rename_i h1
      obtain ⟨t, ht⟩ := run_total hd (unescapeBytes d)
      rw [if_neg h0, if_neg h1, ht]
      simp only [Res.ok_bind]
      split
      · exact Or.inl ⟨_, rfl⟩
      · exact Or.inr ⟨_, rfl, _, rfl⟩

section
variable {σ β : Type} {H : Err → Prop} {W : β → β → Prop} {dec D : Codec}

theorem fo_text (hd : Total dec) (hH : ∀ e, Enc e → H e) {d : Bytes} {f1 f2 : Bytes → Call σ β} (h : ∀ a1 a2, Follows H W (f1 a1) (f2 a2)) :
    Follows H W (run (Str.unmarshal dec d) >>= f1) (run (Str.unmarshal D d) >>= f2) := by
  refine fo_bind (fun _ _ => True) (fun s1 s2 a e => ?_) fun a1 a2 _ => h a1 a2
  rcases str_follows hd e with ⟨b, hb⟩ | ⟨e', he, hE⟩
  · exact Or.inl ⟨b, hb, trivial⟩
  · exact Or.inr ⟨e', he, hH _ hE⟩

theorem fo_name (hd : Total dec) (hH : ∀ e, Enc e → H e) {d : Bytes} {f1 f2 : Bytes → Call σ β} (h : ∀ a1 a2, Follows H W (f1 a1) (f2 a2)) :
    Follows H W (run (Name.unmarshal dec d) >>= f1) (run (Name.unmarshal D d) >>= f2) := by
  refine fo_bind (fun _ _ => True) (fun s1 s2 a e => ?_) fun a1 a2 _ => h a1 a2
  rcases name_follows hd e with ⟨b, hb⟩ | ⟨e', he, hE⟩
  · exact Or.inl ⟨b, hb, trivial⟩
  · exact Or.inr ⟨e', he, hH _ hE⟩

/-- A text whose error is replaced. -/
theorem fo_hidden (hd : Total dec) {n : Nat} (hn : H (.other n)) {d : Bytes} {f1 f2 : Bytes → Call σ β}
    (h : ∀ a1 a2, Follows H W (f1 a1) (f2 a2)) :
    Follows H W (run (mapErr (Str.unmarshal dec d) (.other n)) >>= f1) (run (mapErr (Str.unmarshal D d) (.other n)) >>= f2) := by
  refine fo_bind (fun _ _ => True) (fun s1 s2 a e => ?_) fun a1 a2 _ => h a1 a2
  have e : mapErr (Str.unmarshal D d) (.other n) = .ok a := e
  have e : Str.unmarshal D d = .ok a := by
    revert e; unfold mapErr; cases Str.unmarshal D d <;> simp
  rcases str_follows hd e with ⟨b, hb⟩ | ⟨e', he, hE⟩
  · exact Or.inl ⟨b, by show mapErr _ _ = _; rw [hb]; rfl, trivial⟩
  · exact Or.inr ⟨.other n, by show mapErr _ _ = _; rw [he]; rfl, hn⟩

end

/-- The whole proof for a decoder without loops. -/
macro "follow" hd:term : tactic => `(tactic| repeat' first
  | with_reducible exact fo_set trivial
  | with_reducible exact fo_pure trivial
  | with_reducible exact fo_pure rfl
  | with_reducible exact fo_err
  | with_reducible exact fo_assign trivial
  | with_reducible refine fo_text $hd (by simp) fun _ _ => ?_
  | with_reducible refine fo_name $hd (by simp) fun _ _ => ?_
  | with_reducible refine fo_same fun _ => ?_
  | with_reducible refine fo_skip ?_
  | with_reducible refine fo_put ?_
  | with_reducible refine fo_store ?_)

/-- Nothing is asked of the result. -/
abbrev Any {α : Type} : α → α → Prop := fun _ _ => True

section
variable {dec D : Codec}

theorem chat_follows (hd : Total dec) (d : Bytes) : Follows Enc Any (ChatMessage.call dec d) (ChatMessage.call D d) := by
  unfold ChatMessage.call
  cases d with
  | nil => dsimp only; follow hd
  | cons c d =>
    dsimp only
    by_cases h : c = c!"<"
    · rw [if_pos h, if_pos h]; follow hd
    · rw [if_neg h, if_neg h]; follow hd

theorem private_follows (hd : Total dec) (d : Bytes) : Follows Enc Any (PrivateMessage.call dec d) (PrivateMessage.call D d) := by
  unfold PrivateMessage.call
  follow hd

theorem mcTo_follows (hd : Total dec) (d : Bytes) : Follows Enc Any (MCTo.call dec d) (MCTo.call D d) := by
  unfold MCTo.call
  follow hd

theorem connectToMe_follows (hd : Total dec) (d : Bytes) : Follows Enc Any (ConnectToMe.call dec d) (ConnectToMe.call D d) := by
  unfold ConnectToMe.call
  refine fo_same fun i => fo_name hd (fun _ h => h) fun _ _ => fo_put (fo_same fun x => ?_)
  cases indexByte x c!" " <;> dsimp only <;> follow hd

theorem rev_follows (hd : Total dec) (d : Bytes) : Follows Enc Any (RevConnectToMe.call dec d) (RevConnectToMe.call D d) := by
  unfold RevConnectToMe.call
  follow hd

theorem errMsg_follows (hd : Total dec) (d : Bytes) : Follows Enc Any (ErrMsg.call dec d) (ErrMsg.call D d) := by
  unfold ErrMsg.call
  follow hd

theorem end_follows {σ : Type} {r1 r2 : Res σ} (h : ∀ a, r2 = .ok a → (∃ b, r1 = .ok b) ∨ ∃ e, r1 = .err e ∧ Enc e) :
    Follows Enc Any (atEnd r1) (atEnd r2) := by
  unfold atEnd
  refine fo_bind (fun _ _ => True) (fun s1 s2 a e => ?_) fun _ _ _ => fo_set trivial
  rcases h a e with ⟨b, hb⟩ | h
  · exact Or.inl ⟨b, hb, trivial⟩
  · exact Or.inr h

theorem names_follows (hd : Total dec) {d : Bytes} {a : List Bytes} (h : Names.unmarshal D d = .ok a) :
    (∃ b, Names.unmarshal dec d = .ok b) ∨ ∃ e, Names.unmarshal dec d = .err e ∧ Enc e := by
  unfold Names.unmarshal at h ⊢
  simp only at h ⊢
  split at h
  · rename_i h0; rw [if_pos h0]; exact Or.inl ⟨_, rfl⟩
  · rename_i h0
    rw [if_neg h0]
    revert a
    generalize splitDD _ = l
    induction l with
    | nil => intro a _; exact Or.inl ⟨_, rfl⟩
    | cons x l ih =>
      intro a h
      unfold Names.unmarshalAll at h ⊢
      obtain ⟨n, h1, h⟩ := Res.bind_eq_ok.mp h
      obtain ⟨ns, h2, h⟩ := Res.bind_eq_ok.mp h
      rcases name_follows hd h1 with ⟨b, hb⟩ | ⟨e, he, hE⟩
      · rw [hb]
        rcases ih h2 with ⟨c, hc⟩ | ⟨e, he, hE⟩
        · simp only [Res.ok_bind, hc]; exact Or.inl ⟨_, rfl⟩
        · simp only [Res.ok_bind, he]; exact Or.inr ⟨_, rfl, hE⟩
      · rw [he]; exact Or.inr ⟨_, rfl, hE⟩

theorem entry_follows (hd : Total dec) {d : Bytes} {a : UserAddress} (h : UserIP.entry D d = .ok a) :
    (∃ b, UserIP.entry dec d = .ok b) ∨ ∃ e, UserIP.entry dec d = .err e ∧ Enc e := by
  unfold UserIP.entry at h ⊢
  have key : ∀ (x ip : Bytes), (do let n ← Name.unmarshal D x; pure ({ name := n, ip := ip } : UserAddress)) = .ok a →
      (∃ b, (do let n ← Name.unmarshal dec x; pure ({ name := n, ip := ip } : UserAddress)) = .ok b) ∨
        ∃ e, (do let n ← Name.unmarshal dec x; pure ({ name := n, ip := ip } : UserAddress)) = .err e ∧ Enc e := by
    intro x ip h
    obtain ⟨n, h1, -⟩ := Res.bind_eq_ok.mp h
    rcases name_follows hd h1 with ⟨b, hb⟩ | ⟨e, he, hE⟩
    · rw [hb]; exact Or.inl ⟨_, rfl⟩
    · rw [he]; exact Or.inr ⟨_, rfl, hE⟩
  cases hi : lastIndexByte d c!" " with
  | none => rw [hi] at h; exact key _ _ h
  | some i =>
    rw [hi] at h
    simp only at h ⊢
    cases hs : sliceFrom d (i + 1) with
    | ok ip => rw [hs] at h; exact key _ _ h
    | err e => rw [hs] at h; cases h
    | panic => rw [hs] at h; cases h

theorem userIP_follows (hd : Total dec) (d : Bytes) : Follows Enc Any (UserIP.call dec d) (UserIP.call D d) := by
  unfold UserIP.call
  refine fo_put ?_
  generalize splitDD _ = l
  induction l with
  | nil => exact fo_pure trivial
  | cons x l ih =>
    unfold UserIP.callEntries
    refine fo_bind (fun _ _ => True) (fun s1 s2 a e => ?_) fun _ _ _ => fo_put ih
    rcases entry_follows hd e with ⟨b, hb⟩ | h
    · exact Or.inl ⟨b, hb, trivial⟩
    · exact Or.inr h

theorem hubINFO_follows (hd : Total dec) (d : Bytes) : Follows Enc Any (HubINFO.call dec d) (HubINFO.call D d) := by
  unfold HubINFO.call
  have field : ∀ n i f, Follows Enc Any (HubINFO.callField dec n i f) (HubINFO.callField D n i f) := by
    intro n i f
    match i with
    | 0 | 1 | 2 | 3 | 4 | 5 | 6 | 7 | 8 | 9 | 10 => simp only [HubINFO.callField]; follow hd
    | _ + 11 => exact fo_pure trivial
  generalize (splitMax d c!"$" 13).length = n
  generalize 0 = i
  generalize splitMax d c!"$" 13 = l
  induction l generalizing i with
  | nil => exact fo_pure trivial
  | cons x l ih =>
    unfold HubINFO.callFields
    exact fo_bind _ (field _ _ _) fun _ _ _ => ih _

theorem search_follows (hd : Total dec) (d : Bytes) : Follows Enc Any (Search.call dec d) (Search.call D d) := by
  have target : ∀ t f, Follows Enc Any (Search.callTarget dec t f) (Search.callTarget D t f) := by
    intro t f
    unfold Search.callTarget
    split
    · refine fo_same fun _ => fo_same fun _ => ?_
      exact fun s1 s2 a h => Or.inl ⟨(), h, trivial⟩
    · follow hd
  have string : ∀ x, Follows Enc Any (Search.callString dec x) (Search.callString D x) := by
    intro x
    unfold Search.callString
    split
    · refine fo_store (fo_store (fo_bind Any ?_ fun _ _ _ => fo_same fun _ => fo_put (target _ _)))
      unfold Search.callSize
      split
      · exact fo_pure trivial
      · split
        · exact fo_same fun _ => fo_set trivial
        · exact fo_assign trivial
    · exact fo_err
  unfold Search.call
  refine fo_same fun i => fo_same fun f => ?_
  split
  · exact fo_same fun _ => fo_name hd (fun _ h => h) fun _ _ => fo_put (string _)
  · exact fo_put (string _)

theorem sr_follows (hd : Total dec) (d : Bytes) : Follows Enc Any (SR.call dec d) (SR.call D d) := by
  have slots : ∀ s, Follows Enc Any (SR.callSlots s) (SR.callSlots s) := by
    intro s
    unfold SR.callSlots
    follow hd
  have source : ∀ x, Follows Enc Eq (SR.callSource dec x) (SR.callSource D x) := by
    intro x
    unfold SR.callSource
    split
    · refine fo_same fun _ => fo_same fun _ => fo_same fun _ => fo_same fun _ => fo_same fun _ => fo_same fun _ => ?_
      refine fo_bind Any ?_ fun _ _ _ => fo_pure rfl
      exact fun s1 s2 a h => Or.inl ⟨(), h, trivial⟩
    · follow hd
  have target : ∀ x, Follows Enc Any (SR.callTarget dec x) (SR.callTarget D x) := by
    intro x
    unfold SR.callTarget
    refine fo_same fun _ => fo_put (fo_same fun y => ?_)
    cases y <;> dsimp only <;> follow hd
  have tail : ∀ p s x, Follows Enc Any (SR.callTail dec p s x) (SR.callTail D p s x) := by
    intro p s x
    unfold SR.callTail
    exact fo_text hd (fun _ h => h) fun _ _ => fo_put (fo_bind _ (slots _) fun _ _ _ => fo_bind _ (source _) fun _ _ e => e ▸ target _)
  have file : ∀ x, Follows Enc Eq (SR.callFile x) (SR.callFile x) := by
    intro x
    unfold SR.callFile
    follow hd
  unfold SR.call
  refine fo_same fun i => fo_name hd (fun _ h => h) fun _ _ => fo_same fun x => fo_put (fo_same fun j => fo_same fun y => ?_)
  cases SR.dirSplit (List.take j x) with
  | some p => exact fo_put (tail _ _ _)
  | none => exact fo_bind _ (file _) fun _ _ e => e ▸ tail _ _ _

theorem sp_follows (hd : Total dec) (d : Bytes) : Follows Enc Any (SP.call dec d) (SP.call D d) := by
  unfold SP.call
  refine fo_bind Eq ?_ fun _ _ e => e ▸ fo_name hd (fun _ h => h) fun _ _ => fo_set trivial
  unfold callShort
  refine fo_same fun _ => fo_same fun _ => fo_same fun _ => fo_bind Any ?_ fun _ _ _ => fo_run
  intro s1 s2 a h
  refine Or.inl ⟨(), ?_, trivial⟩
  revert h
  unfold oldHash
  simp only [HashVar.setBuffer_outcome]
  cases Hash.unmarshalBase32 _ <;> simp

theorem myINFO_follows (hd : Total dec) (d : Bytes) : Follows Enc Any (MyINFO.call dec d) (MyINFO.call D d) := by
  have desc : ∀ f, Follows Enc Eq (MyINFO.callDesc f) (MyINFO.callDesc f) := by
    intro f
    refine fo_state fun s1 s2 => ?_
    have h1 := desc_full f s1
    have h2 := desc_full f s2
    rw [NmdcReuse.descField_eq s1 s2 f] at h1
    unfold full at h1 h2
    revert h1 h2
    cases (MyINFO.callDesc f s1).1 <;> cases (MyINFO.callDesc f s2).1 <;> cases MyINFO.descField s2 f <;>
      simp +contextual
  have conn : ∀ f, Follows Enc Any (MyINFO.callConn dec f) (MyINFO.callConn D f) := by
    intro f
    unfold MyINFO.callConn
    cases f.getLast? <;> dsimp only <;> follow hd
  unfold MyINFO.call
  refine fo_same fun _ => fo_same fun _ => fo_same fun _ => fo_name hd (fun _ h => h) fun _ _ => fo_same fun x => fo_put ?_
  generalize split x c!"$" = l
  match l with
  | [f1, f2, f3, f4, f5, _] =>
    unfold MyINFO.callFields
    refine fo_bind _ (desc f1) fun p _ e => e ▸ fo_text hd (fun _ h => h) fun _ _ => fo_put ?_
    match f2 with
    | [c] => exact fo_put (fo_bind _ (conn _) fun _ _ _ => fo_text hd (fun _ h => h) fun _ _ => fo_put (fo_set trivial))
    | [] => exact fo_err
    | _ :: _ :: _ => exact fo_err
  | [] => exact fo_err
  | [_] => exact fo_err
  | [_, _] => exact fo_err
  | [_, _, _] => exact fo_err
  | [_, _, _, _] => exact fo_err
  | [_, _, _, _, _] => exact fo_err
  | _ :: _ :: _ :: _ :: _ :: _ :: _ :: _ => exact fo_err

/-- The errors of a text encoding, and `Err.other n`. -/
def EncOr (n : Nat) (e : Err) : Prop := Enc e ∨ e = .other n

theorem path_follows (hd : Total dec) (l : List Bytes) :
    Follows (EncOr 22) Any (UserCommand.callPath dec l) (UserCommand.callPath D l) := by
  induction l with
  | nil => exact fo_pure trivial
  | cons x l ih =>
    unfold UserCommand.callPath
    by_cases h : x = []
    · rw [if_pos h, if_pos h]; exact ih
    · rw [if_neg h, if_neg h]; exact fo_hidden hd (Or.inr rfl) fun _ _ => fo_put ih

theorem userCommand_follows (hd : Total dec) (d : Bytes) :
    Follows (EncOr 22) Any (UserCommand.call dec d) (UserCommand.call D d) := by
  unfold UserCommand.call
  generalize splitMax (trimSpaceU d) c!" " 3 = l
  match l with
  | [] | [_] => exact fo_err
  | a0 :: a1 :: rest =>
    refine fo_same fun _ => fo_put (fo_same fun _ => fo_put ?_)
    match rest with
    | [] => exact fo_pure trivial
    | val :: _ =>
      exact fo_same fun _ => fo_same fun _ => fo_put (fo_bind _ (path_follows hd _) fun _ _ _ =>
        fo_same fun _ => fo_text hd (fun _ h => Or.inl h) fun _ _ => fo_set trivial)

theorem adcGet_follows (hd : Total dec) (d : Bytes) : Follows (EncOr 42) Any (ADCGet.call dec d) (ADCGet.call D d) := by
  have flags : ∀ l, Follows (EncOr 42) Any (ADCGet.callFlags l) (ADCGet.callFlags l) := by
    intro l
    induction l with
    | nil => exact fo_pure trivial
    | cons x l ih =>
      unfold ADCGet.callFlags
      split
      · exact fo_put ih
      · split
        · exact fo_same fun _ => fo_same fun _ => fo_put ih
        · exact ih
  unfold ADCGet.call
  exact fo_same fun _ => fo_text hd (fun _ h => Or.inl h) fun _ _ => fo_put (fo_same fun _ => fo_hidden hd (Or.inr rfl) fun _ _ =>
    fo_put (fo_same fun _ => fo_store (fo_same fun _ => fo_same fun _ => fo_put (flags _))))

theorem adcSnd_follows (hd : Total dec) (d : Bytes) : Follows (EncOr 42) Any (ADCSnd.call dec d) (ADCSnd.call D d) := by
  unfold ADCSnd.call
  refine fo_same fun _ => fo_text hd (fun _ h => Or.inl h) fun _ _ => fo_put (fo_same fun _ => fo_hidden hd (Or.inr rfl) fun _ _ =>
    fo_put (fo_same fun _ => fo_store (fo_same fun _ => fo_store ?_)))
  split
  · exact fo_same fun _ => fo_set trivial
  · exact fo_pure trivial

end

/-! ## Messages -/

/-- Whether the code replaces the error of one of the texts of the message by another: `nmdc/msg_files.go:69-71` and `172-174`,
`nmdc/msg_chat.go:337-339`. -/
def hides : Msg → Option Nat
  | .adcGet _ | .adcSnd _ => some 42
  | .userCommand _ => some 22
  | _ => none

/-- The errors that a text encoding can cause. -/
def Because (u : Msg) (e : Err) : Prop := Enc e ∨ ∃ n, hides u = some n ∧ e = .other n

theorem on_follows {σ : Type} {mk : σ → Msg} {H : Err → Prop} {dec D : Codec} {d : Bytes} {c1 c2 : Call σ Unit} {s : σ} {m : Msg}
    (h1 : Msg.call dec d (mk s) = Call.on mk c1 s) (h2 : Msg.call D d (mk s) = Call.on mk c2 s)
    (h : Follows H Any c1 c2) (hm : (mk s).unmarshal D d = .ok m) :
    (∃ m', (mk s).unmarshal dec d = .ok m') ∨ ∃ e, (mk s).unmarshal dec d = .err e ∧ H e := by
  rw [← call_value] at hm ⊢
  unfold value at hm ⊢
  rw [h2] at hm
  rw [h1]
  unfold Call.on at hm ⊢
  cases h3 : (c2 s).1 with
  | err e => rw [h3] at hm; cases hm
  | panic => rw [h3] at hm; cases hm
  | ok a =>
    rcases h s s a h3 with ⟨b, hb, -⟩ | ⟨e, he, hE⟩
    · rw [hb]; exact Or.inl ⟨_, rfl⟩
    · rw [he]; exact Or.inr ⟨e, rfl, hE⟩

/-- **C99, decoding.** When some decoder of texts decodes the arguments of a command, another one that fails on no text decodes
them too or reports an unknown encoding, except that three types report another error for one of their texts.  In particular no
other part of the arguments is refused. -/
theorem reported (dec D : Codec) (hd : Total dec) (u : Msg) (d : Bytes) (m : Msg) (hm : u.unmarshal D d = .ok m) :
    (∃ m', u.unmarshal dec d = .ok m') ∨ ∃ e, u.unmarshal dec d = .err e ∧ Because u e := by
  have plain : ∀ {P : Prop}, (P ∨ ∃ e, u.unmarshal dec d = .err e ∧ Enc e) → P ∨ ∃ e, u.unmarshal dec d = .err e ∧ Because u e :=
    fun h => h.imp id fun ⟨e, h1, h2⟩ => ⟨e, h1, Or.inl h2⟩
  have hidden : ∀ {P : Prop} {n}, hides u = some n → (P ∨ ∃ e, u.unmarshal dec d = .err e ∧ EncOr n e) →
      P ∨ ∃ e, u.unmarshal dec d = .err e ∧ Because u e :=
    fun hn h => h.imp id fun ⟨e, h1, h2⟩ => ⟨e, h1, h2.imp id fun h => ⟨_, hn, h⟩⟩
  cases u with
  | chat x => exact plain (on_follows rfl rfl (chat_follows hd d) hm)
  | priv x => exact plain (on_follows rfl rfl (private_follows hd d) hm)
  | mcTo x => exact plain (on_follows rfl rfl (mcTo_follows hd d) hm)
  | userCommand x => exact hidden rfl (on_follows rfl rfl (userCommand_follows hd d) hm)
  | connectToMe x => exact plain (on_follows rfl rfl (connectToMe_follows hd d) hm)
  | revConnectToMe x => exact plain (on_follows rfl rfl (rev_follows hd d) hm)
  | errMsg k x => exact plain (on_follows (mk := Msg.errMsg k) rfl rfl (errMsg_follows hd d) hm)
  | name k x => exact plain (on_follows (mk := Msg.name k) rfl rfl (end_follows fun _ => name_follows hd) hm)
  | text k x => exact plain (on_follows (mk := Msg.text k) rfl rfl (end_follows fun _ => str_follows hd) hm)
  | noArgs k => exact Or.inl ⟨m, hm⟩
  | value k x => exact Or.inl ⟨m, hm⟩
  | failOver x => exact Or.inl ⟨m, hm⟩
  | supports x => exact Or.inl ⟨m, hm⟩
  | lock x => exact Or.inl ⟨m, hm⟩
  | hubINFO x => exact plain (on_follows rfl rfl (hubINFO_follows hd d) hm)
  | names k x => exact plain (on_follows (mk := Msg.names k) rfl rfl (end_follows fun _ => names_follows hd) hm)
  | userIP x => exact plain (on_follows rfl rfl (userIP_follows hd d) hm)
  | adcGet x => exact hidden rfl (on_follows rfl rfl (adcGet_follows hd d) hm)
  | adcSnd x => exact hidden rfl (on_follows rfl rfl (adcSnd_follows hd d) hm)
  | direction x => exact Or.inl ⟨m, hm⟩
  | search x => exact plain (on_follows rfl rfl (search_follows hd d) hm)
  | sr x => exact plain (on_follows rfl rfl (sr_follows hd d) hm)
  | sa x => exact Or.inl ⟨m, hm⟩
  | sp x => exact plain (on_follows rfl rfl (sp_follows hd d) hm)
  | myINFO x => exact plain (on_follows rfl rfl (myINFO_follows hd d) hm)
  | raw t x => exact Or.inl ⟨m, hm⟩

/-! ## Lines -/

variable {Z : Type} (I : Inflater Z)

/-- With `OnUnknownEncoding` set, a line that the decoder of the reader decodes gives its message. -/
theorem reads_at_once (left : Codec → Msg → Bytes → Msg) (f : Bytes → Except Err Codec) (r : NReader Z) (henv : r.env = onlyEnc f) (n : Nat)
    (l : Bytes) (v : Verdict) (hv : LineIs r.maxCmdName l v) (lr : Reader Z) (hr : Lines I r (afterKeepAlives n l) lr) (m : Msg) :
    (∀ typ args, v = .command typ args → (newMessage typ).unmarshal r.dec args = .ok m →
      Reads I left r (.ok (some m)) { r with lines := lr }) ∧
    (∀ t, v = .chat t → (Msg.chat {}).unmarshal r.dec t = .ok m → Reads I left r (.ok (some m)) { r with lines := lr }) := by
  have base : ∀ st, Consumes (onlyEnc f) left r.maxCmdName n [(l, none)] (r.start none []) (some (none, st)) →
      Reads I left r (.ok st.cur) { r with lines := lr, dec := st.rdec } := by
    intro st h
    obtain ⟨k, hk⟩ := loop_of_consumes I (consumes_keepAlives (fun _ => rfl) n 0 (by simpa using h)) r lr henv rfl hr
    exact ⟨k, fun fl hf => by rw [NReader.readMsg, hk fl hf]; rfl⟩
  have key : ∀ (u : Msg) (args : Bytes), u.unmarshal r.dec args = .ok m →
      round (onlyEnc f n) left r.maxCmdName (l, none) (r.start none []) =
        decodeInto (onlyEnc f n) left l.dropLast args u { r.start none [] with cur := some u } →
      Reads I left r (.ok (some m)) { r with lines := lr } := by
    intro u args hu hround
    unfold decodeInto tryUnmarshal at hround
    have hd : ({ r.start none [] with cur := some u } : St).dec = r.dec := rfl
    rw [hd, hu] at hround
    simp only [fallback, onlyEnc, afterDecode, runAll] at hround
    exact base _ (.last n _ _ _ _ hround)
  refine ⟨?_, ?_⟩
  · rintro typ args rfl hu
    refine key _ _ hu ?_
    have := round_command (env := onlyEnc f n) (left := left) (st := r.start none []) hv rfl
    simpa only [targetCmd, NReader.start] using this
  · rintro t rfl hu
    refine key _ _ hu ?_
    have := round_chat (env := onlyEnc f n) (left := left) (st := r.start none []) hv rfl
    simpa only [targetChat, NReader.start] using this

/-- `ReadMsg` decodes the arguments `args` of the line `l` into `u`. -/
def Targets (max : Int) (l : Bytes) (u : Msg) (args : Bytes) : Prop :=
  (∃ typ, LineIs max l (.command typ args) ∧ u = newMessage typ) ∨ (LineIs max l (.chat args) ∧ u = .chat {})

/-- **C99, `ReadMsg`.** Let `OnUnknownEncoding` always return the decoder `D`.  A line that `D` decodes, of a type that hides no errors,
is not lost: `ReadMsg` returns its message, decoded with the decoder that the reader has or with `D`, which is then the decoder from
now on. -/
theorem not_lost (D : Bytes → Option Bytes) (f : Bytes → Except Err Codec) (hf : ∀ t, f t = .ok (some D)) (r : NReader Z)
    (henv : r.env = onlyEnc f) (hd : Total r.dec) (n : Nat) (l : Bytes) (u : Msg) (args : Bytes) (ht : Targets r.maxCmdName l u args)
    (hh : hides u = none) (lr : Reader Z) (hr : Lines I r (afterKeepAlives n l) lr) (m : Msg) (hm : u.unmarshal (some D) args = .ok m) :
    (∃ m', u.unmarshal r.dec args = .ok m' ∧ Reads I Msg.left r (.ok (some m')) { r with lines := lr }) ∨
    ((∃ t, u.unmarshal r.dec args = .err (.unknownEncoding t)) ∧ Reads I Msg.left r (.ok (some m)) { r with lines := lr, dec := some D }) := by
  rcases reported r.dec (some D) hd u args m hm with ⟨m', hm'⟩ | ⟨e, he, hE⟩
  · refine Or.inl ⟨m', hm', ?_⟩
    rcases ht with ⟨typ, hv, rfl⟩ | ⟨hv, rfl⟩
    · exact (reads_at_once I Msg.left f r henv n l _ hv lr hr m').1 typ args rfl hm'
    · exact (reads_at_once I Msg.left f r henv n l _ hv lr hr m').2 args rfl hm'
  · rcases hE with ⟨t, rfl⟩ | ⟨k, hk, -⟩
    · refine Or.inr ⟨⟨t, he⟩, ?_⟩
      rcases ht with ⟨typ, hv, rfl⟩ | ⟨hv, rfl⟩
      · have := NmdcRetry.read_again I f r henv n l typ args hv lr hr t he D (hf t)
        simpa only [Decodes, hm] using this
      · have := NmdcRetry.read_again_chat I f r henv n l args hv lr hr t he D (hf t)
        simpa only [Decodes, hm] using this
    · rw [hh] at hk; cases hk

/-- Lines all of which, keep-alives apart, the decoder `D` decodes, of types that hide no errors. -/
inductive Legible (D : Bytes → Option Bytes) (max : Int) : List Bytes → Prop where
  | nil : Legible D max []
  | keepAlive (ls : List Bytes) (t : Legible D max ls) : Legible D max ([delim] :: ls)
  | line (l : Bytes) (ls : List Bytes) (u : Msg) (args : Bytes) (m : Msg) (h : Targets max l u args) (hh : hides u = none)
      (hm : u.unmarshal (some D) args = .ok m) (t : Legible D max ls) : Legible D max (l :: ls)

/-- The messages of such lines for a reader with the decoder `dec`: its own until the first line with an unknown encoding, then those
of `D`; and its decoder afterwards. -/
inductive Given (D : Bytes → Option Bytes) (max : Int) : Codec → List Bytes → List Msg → Codec → Prop where
  | nil (dec : Codec) : Given D max dec [] [] dec
  | keepAlive (dec c : Codec) (ls : List Bytes) (ms : List Msg) (t : Given D max dec ls ms c) : Given D max dec ([delim] :: ls) ms c
  | line (dec c : Codec) (l : Bytes) (ls : List Bytes) (u : Msg) (args : Bytes) (m : Msg) (ms : List Msg) (h : Targets max l u args)
      (hm : u.unmarshal dec args = .ok m) (t : Given D max dec ls ms c) : Given D max dec (l :: ls) (m :: ms) c
  | change (dec c : Codec) (l : Bytes) (ls : List Bytes) (u : Msg) (args : Bytes) (m : Msg) (ms : List Msg) (h : Targets max l u args)
      (t : Bytes) (he : u.unmarshal dec args = .err (.unknownEncoding t)) (hm : u.unmarshal (some D) args = .ok m)
      (t : Given D max (some D) ls ms c) : Given D max dec (l :: ls) (m :: ms) c

/-- **C99, a stream.** When `OnUnknownEncoding` always returns `D` and `D` decodes every line, no call of `ReadMsg` fails before the
stream ends. -/
theorem stream_not_lost (D : Bytes → Option Bytes) (hD : Total (some D)) (f : Bytes → Except Err Codec) (hf : ∀ t, f t = .ok (some D))
    (ls : List Bytes) (r : NReader Z) (henv : r.env = onlyEnc f) (hd : Total r.dec) (hl : Legible D r.maxCmdName ls) (tail : Bytes) (e : Err)
    (lr : Reader Z) (hr : Lines I r (ls.map (fun l => (l, none)) ++ [(tail, some e)]) lr) :
    ∃ ms c, Given D r.maxCmdName r.dec ls ms c ∧
      MsgRuns I Msg.left r (ms.map (fun m => .ok (some m)) ++ [.error e]) { r with lines := lr, dec := c } := by
  have main : ∀ (ls : List Bytes) (n : Nat) (r : NReader Z), r.env = onlyEnc f → Total r.dec → Legible D r.maxCmdName ls →
      Lines I r (List.replicate n ([delim], none) ++ (ls.map (fun l => (l, none)) ++ [(tail, some e)])) lr →
      ∃ ms c, Given D r.maxCmdName r.dec ls ms c ∧
        MsgRuns I Msg.left r (ms.map (fun m => .ok (some m)) ++ [.error e]) { r with lines := lr, dec := c } := by
    intro ls
    induction ls with
    | nil =>
      intro n r henv hd _ hr
      refine ⟨[], r.dec, .nil _, .cons _ _ _ _ _ ?_ (.nil _)⟩
      obtain ⟨k, hk⟩ := loop_of_consumes I (consumes_keepAlives (env := onlyEnc f) (fun _ => rfl) n 0
        (.last (0 + n) _ (r.start none []) _ _ round_error)) r lr henv rfl hr
      exact ⟨k, fun fl hfl => by rw [NReader.readMsg, hk fl hfl]; rfl⟩
    | cons l ls ih =>
      intro n r henv hd hl hr
      cases hl with
      | keepAlive _ t =>
        obtain ⟨ms, c, h1, h2⟩ := ih (n + 1) r henv hd t (by rw [List.replicate_succ']; simpa using hr)
        exact ⟨ms, c, .keepAlive _ _ _ _ h1, h2⟩
      | line _ _ u args m h hh hm t =>
        have hr' : Reader.Runs I r.lines ((afterKeepAlives n l).map Obs.line ++
            (ls.map (fun l => (l, none)) ++ [(tail, some e)]).map Obs.line) lr := by
          rw [← List.map_append]; simpa [afterKeepAlives, Lines] using hr
        obtain ⟨r1, h1, h2⟩ := runs_split I hr'
        rcases not_lost I D f hf r henv hd n l u args h hh r1 h1 m hm with ⟨m', hm', h3⟩ | ⟨⟨t', ht'⟩, h3⟩
        · obtain ⟨ms, c, h4, h5⟩ := ih 0 { r with lines := r1 } henv hd t (by simpa [Lines] using h2)
          exact ⟨m' :: ms, c, .line _ _ _ _ _ _ _ _ h hm' h4, .cons _ _ _ _ _ h3 h5⟩
        · obtain ⟨ms, c, h4, h5⟩ := ih 0 { r with lines := r1, dec := some D } henv hD t (by simpa [Lines] using h2)
          exact ⟨m :: ms, c, .change _ _ _ _ _ _ _ _ h t' ht' hm h4, .cons _ _ _ _ _ h3 h5⟩
  exact main ls 0 r henv hd hl (by simpa using hr)

/-- A legacy encoding for the examples: one letter outside ASCII. -/
def legacy : Bytes → Option Bytes := fun s => some (s.flatMap fun b => if b = 0xE9 then [0xC3, 0xA9] else [b])

theorem legacy_total : Total (some legacy) := by
  intro f hf s
  cases hf
  exact fun h => nomatch h

theorem none_total : Total none := fun _ h => nomatch h

/-- A stream for a reader without a decoder: a UTF-8 topic is read as it is, then the name in the legacy encoding changes the decoder,
and the lines after it are all read with it. -/
example : letI := basicEntities
    let ls : List Bytes := [b!"$HubTopic " ++ [0xC3, 0xA9] ++ b!"|", b!"|", b!"$Hello " ++ [0xE9] ++ b!"|", b!"<joe> " ++ [0xE9] ++ b!"|"]
    Legible legacy 32 ls ∧
    Given legacy 32 none ls [.text .hubTopic [0xC3, 0xA9], .name .hello [0xC3, 0xA9], .chat { name := b!"joe", text := [0xC3, 0xA9] }]
      (some legacy) := by
  letI := basicEntities
  have nm : ∀ t : Bytes, t ≠ [] → (t.length : Int) ≤ 32 → isASCII t = true → CmdName 32 t := by
    intro t h1 h2 h3
    exact (cmdNameOk_iff 32 t).mp (by simp [cmdNameOk, h1, h2, h3])
  have h1 : Targets 32 (b!"$HubTopic " ++ [0xC3, 0xA9] ++ b!"|") (.text .hubTopic []) [0xC3, 0xA9] :=
    .inl ⟨_, .command b!"HubTopic" [0xC3, 0xA9] (nm _ (by decide) (by decide) (by decide)) (by decide), by decide +kernel⟩
  have h2 : Targets 32 (b!"$Hello " ++ [0xE9] ++ b!"|") (.name .hello []) [0xE9] :=
    .inl ⟨_, .command b!"Hello" [0xE9] (nm _ (by decide) (by decide) (by decide)) (by decide), by decide +kernel⟩
  have h3 : Targets 32 (b!"<joe> " ++ [0xE9] ++ b!"|") (.chat {}) (b!"<joe> " ++ [0xE9]) :=
    .inr ⟨.chat _ (by decide) (by decide) (by decide), rfl⟩
  refine ⟨.line _ _ _ _ (.text .hubTopic [0xC3, 0xA9]) h1 rfl (by decide +kernel) (.keepAlive _ (.line _ _ _ _
    (.name .hello [0xC3, 0xA9]) h2 rfl (by decide +kernel) (.line _ _ _ _ (.chat { name := b!"joe", text := [0xC3, 0xA9] }) h3 rfl
    (by decide +kernel) .nil))), ?_⟩
  exact .line _ _ _ _ _ _ _ _ h1 (by decide +kernel) (.keepAlive _ _ _ _ (.change _ _ _ _ _ _ _ _ h2 [0xE9] (by decide +kernel)
    (by decide +kernel) (.line _ _ _ _ _ _ _ _ h3 (by decide +kernel) (.nil _))))

/-- The three exceptions: the file name of a request that the legacy encoding decodes is reported with another error, so the line is lost
whatever the callback would have returned; so is the path of a command of the hub. -/
example : letI := basicEntities
    (Msg.adcGet {}).unmarshal (some legacy) (b!"file " ++ [0xE9] ++ b!" 0 1") = .ok (.adcGet
      { contentType := b!"file", identifier := [0xC3, 0xA9], length := 1 }) ∧
    (Msg.adcGet {}).unmarshal none (b!"file " ++ [0xE9] ++ b!" 0 1") = .err (.other 42) ∧
    (Msg.adcSnd {}).unmarshal none (b!"file " ++ [0xE9] ++ b!" 0 1") = .err (.other 42) ∧
    (Msg.userCommand {}).unmarshal none (b!"1 3 " ++ [0xE9] ++ b!"$x") = .err (.other 22) := by
  decide +kernel

/-- A decoder that itself fails does not ask for another. -/
example : letI := basicEntities
    ¬ ∃ e, (Msg.text .hubTopic []).unmarshal (some fun _ => none) b!"x" = .err e ∧ Because (.text .hubTopic []) e := by
  letI := basicEntities
  rintro ⟨e, h, he⟩
  have h0 : (Msg.text .hubTopic []).unmarshal (some fun _ => none) b!"x" = .err (.other 10) := by decide +kernel
  rw [h0] at h
  cases h
  rcases he with ⟨t, ht⟩ | ⟨n, hn, _⟩
  · cases ht
  · cases hn

end Verif.Props.NmdcReported
