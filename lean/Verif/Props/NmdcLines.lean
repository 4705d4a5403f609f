import Verif.Nmdc.PanicLemmas
import Verif.Nmdc.NumLemmas
import Verif.Nmdc.SimpleLemmas
import Verif.Nmdc.SearchLemmas

/-!
# One message is one protocol line (C16)
-/

namespace Verif.Props.NmdcLines

open Verif.Go Verif.Nmdc Verif.Tiger Verif.Spec

/-- The bytes of the fields that are sent as they are, without escaping. -/
def rawFields (ord : StrMap → StrMap) : Msg → Bytes
  | .connectToMe m => m.address
  | .value _ s => s
  | .failOver l => l.flatten
  | .supports l => l.flatten
  | .lock m => m.lock ++ m.pk ++ m.ref
  | .hubINFO m => m.host ++ m.soft.name ++ m.soft.version ++ m.encoding
  | .userIP l => (l.map UserAddress.ip).flatten
  | .search m => m.address
  | .sr m => m.hubAddress
  | .sa m => m.address
  | .myINFO m => m.client.name ++ m.client.version ++ [m.mode, m.flag] ++ (ord m.extra).flatMap (fun e => e.1 ++ e.2)
  | .raw _ d => d
  | _ => []

theorem str_bar {enc : Codec} {s w : Bytes} (h : Str.marshal enc s = .ok w) : c!"|" ∉ w := fun hm =>
  (str_marshal_clean h _ hm).2.1 rfl

theorem name_bar {enc : Codec} {s w : Bytes} (h : Name.marshal enc s = .ok w) : c!"|" ∉ w := fun hm =>
  (name_marshal_clean h _ hm).2.1 rfl

theorem utoa_bar (n : Nat) : c!"|" ∉ utoa n := utoa_no (by decide)

theorem itoa_bar (k : Int) : c!"|" ∉ itoa k := by
  intro h
  rcases itoa_bytes h with h | h
  · exact absurd h (by decide)
  · exact absurd h (by decide)

theorem base32_bar (h : Hash) : c!"|" ∉ h.base32 := alpha_no (by decide)

theorem mem_join {ps : List Bytes} {sep c : Byte} (h : c ≠ sep) : c ∈ join ps sep ↔ ∃ p ∈ ps, c ∈ p := by
  induction ps with
  | nil => simp [join]
  | cons p ps ih =>
    cases ps with
    | nil => simp [join]
    | cons q ps =>
      rw [join_cons2, List.mem_append, List.mem_cons, ih]
      simp [h]

theorem marshalAll_bar {enc : Codec} {l : List Bytes} {w : Bytes} (h : Names.marshalAll enc l = .ok w) : c!"|" ∉ w := by
  induction l generalizing w with
  | nil => cases h; simp
  | cons n ns ih =>
    unfold Names.marshalAll at h
    obtain ⟨a, ha, h⟩ := Res.bind_eq_ok.mp h
    obtain ⟨b, hb, h⟩ := Res.bind_eq_ok.mp h
    cases h
    simp only [List.mem_append, not_or]
    exact ⟨⟨name_bar ha, by decide⟩, ih hb⟩

theorem userIP_bar {enc : Codec} {l : List UserAddress} {w : Bytes} (h : UserIP.marshal enc l = .ok w) :
    c!"|" ∈ w ↔ c!"|" ∈ (l.map UserAddress.ip).flatten := by
  induction l generalizing w with
  | nil => cases h; simp
  | cons n ns ih =>
    unfold UserIP.marshal at h
    obtain ⟨a, ha, h⟩ := Res.bind_eq_ok.mp h
    obtain ⟨b, hb, h⟩ := Res.bind_eq_ok.mp h
    cases h
    have := name_bar ha
    simp only [List.mem_append, ih hb, List.map_cons, List.flatten_cons]
    simp [this, dd]

theorem marshalPath_bar {enc : Codec} {l ws : List Bytes} (h : marshalPath enc l = .ok ws) : ∀ w ∈ ws, c!"|" ∉ w := by
  induction l generalizing ws with
  | nil => cases h; simp
  | cons n ns ih =>
    unfold marshalPath at h
    obtain ⟨a, ha, h⟩ := Res.bind_eq_ok.mp h
    obtain ⟨b, hb, h⟩ := Res.bind_eq_ok.mp h
    cases h
    intro w hw
    rcases List.mem_cons.mp hw with rfl | hw
    · exact str_bar ha
    · exact ih hb w hw

theorem strAll_bar {enc : Codec} {l ws : List Bytes} (h : strAll enc l = .ok ws) : ∀ w ∈ ws, c!"|" ∉ w := by
  induction l generalizing ws with
  | nil => cases h; simp
  | cons n ns ih =>
    unfold strAll at h
    obtain ⟨a, ha, h⟩ := Res.bind_eq_ok.mp h
    obtain ⟨b, hb, h⟩ := Res.bind_eq_ok.mp h
    cases h
    intro w hw
    rcases List.mem_cons.mp hw with rfl | hw
    · exact str_bar ha
    · exact ih hb w hw

theorem join_bar {ws : List Bytes} {sep : Byte} (hs : sep ≠ c!"|") (h : ∀ w ∈ ws, c!"|" ∉ w) : c!"|" ∉ join ws sep := by
  rw [mem_join (Ne.symm hs)]
  rintro ⟨p, hp, hm⟩
  exact h p hp hm

theorem replace_bar {p : Bytes} (h : c!"|" ∉ p) : c!"|" ∉ replaceByte p c!" " c!"$" := by
  simp only [replaceByte, List.mem_map, not_exists, not_and]
  intro c hc
  split
  · decide
  · rintro rfl; exact h hc

/-- The payload holds a delimiter exactly if one of the unescaped fields does. -/
theorem payload_bar {enc : Codec} {ord : StrMap → StrMap} {m : Msg} {w : Bytes} (h : m.marshal enc ord = .ok w) :
    c!"|" ∈ w ↔ c!"|" ∈ rawFields ord m := by
  cases m with
  | chat m =>
    simp only [Msg.marshal, ChatMessage.marshal] at h
    simp only [rawFields, List.not_mem_nil, iff_false]
    split at h
    · obtain ⟨n, hn, h⟩ := Res.bind_eq_ok.mp h
      obtain ⟨x, hx, h⟩ := Res.bind_eq_ok.mp h
      obtain ⟨t, ht, h⟩ := Res.bind_eq_ok.mp h
      cases hx; cases h
      have := name_bar hn; have := str_bar ht
      simp_all
    · obtain ⟨x, hx, h⟩ := Res.bind_eq_ok.mp h
      obtain ⟨t, ht, h⟩ := Res.bind_eq_ok.mp h
      cases hx; cases h
      simpa using str_bar ht
  | priv m =>
    simp only [Msg.marshal, PrivateMessage.marshal] at h
    obtain ⟨a, ha, h⟩ := Res.bind_eq_ok.mp h
    obtain ⟨b, hb, h⟩ := Res.bind_eq_ok.mp h
    obtain ⟨c, hc, h⟩ := Res.bind_eq_ok.mp h
    obtain ⟨d, hd, h⟩ := Res.bind_eq_ok.mp h
    cases h
    have := name_bar ha; have := name_bar hb; have := name_bar hc; have := str_bar hd
    simp_all [rawFields]
  | mcTo m =>
    simp only [Msg.marshal, MCTo.marshal] at h
    obtain ⟨a, ha, h⟩ := Res.bind_eq_ok.mp h
    obtain ⟨b, hb, h⟩ := Res.bind_eq_ok.mp h
    obtain ⟨d, hd, h⟩ := Res.bind_eq_ok.mp h
    cases h
    have := name_bar ha; have := name_bar hb; have := str_bar hd
    simp_all [rawFields]
  | userCommand m =>
    simp only [Msg.marshal, UserCommand.marshal] at h
    have h1 := utoa_bar (toU64 m.typ); have h2 := utoa_bar (toU64 m.context)
    have key : ∀ p : Bytes, c!"|" ∉ p → (if m.command = [] then (pure (utoa (toU64 m.typ) ++ b!" " ++ utoa (toU64 m.context) ++ p) : Res Bytes)
        else do
          let c ← Str.marshal enc m.command
          pure (utoa (toU64 m.typ) ++ b!" " ++ utoa (toU64 m.context) ++ p ++ b!" $" ++ c)) = .ok w → c!"|" ∉ w := by
      intro p hp h
      split at h
      · cases h; simp_all
      · obtain ⟨c, hc, h⟩ := Res.bind_eq_ok.mp h
        cases h
        have := str_bar hc
        simp_all
    simp only [rawFields, List.not_mem_nil, iff_false]
    split at h
    · obtain ⟨ws, hws, h⟩ := Res.bind_eq_ok.mp h
      refine key _ ?_ h
      have := join_bar (sep := c!"\\") (by decide) (marshalPath_bar hws)
      simp_all
    · exact key [] (by simp) h
  | connectToMe m =>
    simp only [Msg.marshal, ConnectToMe.marshal] at h
    simp only [rawFields]
    split at h
    · cases h
    · obtain ⟨t, ht, h⟩ := Res.bind_eq_ok.mp h
      have e1 := name_bar ht
      have key : ∀ k : Bytes, c!"|" ∉ k → (
          if m.kind ≠ 1 then
            if m.src ≠ [] then (.err (.other 32) : Res Bytes) else pure (t ++ b!" " ++ m.address ++ k ++ (if m.secure then b!"S" else []))
          else if m.src = [] then .err (.other 33)
          else do
            let n ← Name.marshal enc m.src
            pure (t ++ b!" " ++ m.address ++ k ++ (if m.secure then b!"S" else []) ++ b!" " ++ n)) = .ok w →
          (c!"|" ∈ w ↔ c!"|" ∈ m.address) := by
        intro k hk h
        split at h
        · split at h
          · cases h
          · cases h
            cases m.secure <;> simp [e1, hk]
        · split at h
          · cases h
          · obtain ⟨n, hn, h⟩ := Res.bind_eq_ok.mp h
            cases h
            have := name_bar hn
            cases m.secure <;> simp [e1, hk, this]
      split at h
      · exact key [] (by simp) h
      · split at h
        · exact key b!"N" (by decide) h
        · split at h
          · exact key b!"R" (by decide) (by rw [if_pos ‹¬ m.kind = 1›]; exact h)
          · cases h
  | revConnectToMe m =>
    simp only [Msg.marshal, RevConnectToMe.marshal] at h
    obtain ⟨a, ha, h⟩ := Res.bind_eq_ok.mp h
    obtain ⟨b, hb, h⟩ := Res.bind_eq_ok.mp h
    cases h
    have := name_bar ha; have := name_bar hb
    simp_all [rawFields]
  | errMsg k e =>
    cases e with
    | none => cases h; simp [rawFields]
    | some t => have := str_bar h; simp_all [rawFields]
  | name k n => have := name_bar h; simp_all [rawFields]
  | text k n => have := str_bar h; simp_all [rawFields]
  | noArgs k => cases h; simp [rawFields]
  | value k s => cases h; rfl
  | failOver l => cases h; simp [rawFields, mem_join]
  | supports l =>
    simp only [Msg.marshal, Supports.marshal] at h
    split at h
    · cases h
    · cases h; simp [rawFields, mem_join]
  | lock m =>
    cases h
    simp only [rawFields, extLockPref]
    by_cases hp : m.pk = [] <;> by_cases hr : m.ref = [] <;> cases m.noExt <;> simp [hp, hr]
  | hubINFO m =>
    simp only [Msg.marshal, HubINFO.marshal] at h
    obtain ⟨a, ha, h⟩ := Res.bind_eq_ok.mp h
    obtain ⟨b, hb, h⟩ := Res.bind_eq_ok.mp h
    obtain ⟨c, hc, h⟩ := Res.bind_eq_ok.mp h
    obtain ⟨d, hd, h⟩ := Res.bind_eq_ok.mp h
    cases h
    have e1 := str_bar ha; have e2 := str_bar hb; have e3 := str_bar hc; have e4 := str_bar hd
    rw [mem_join (by decide)]
    simp only [rawFields, Software.text]
    by_cases hv : m.soft.version = [] <;> simp [e1, e2, e3, e4, itoa_bar, hv, or_assoc]
  | names k l =>
    simp only [Msg.marshal, Names.marshal] at h
    split at h
    · cases h; simp [rawFields, dd]
    · have := marshalAll_bar h; simp_all [rawFields]
  | userIP l => exact userIP_bar h
  | adcGet m =>
    simp only [Msg.marshal, ADCGet.marshal] at h
    obtain ⟨a, ha, h⟩ := Res.bind_eq_ok.mp h
    obtain ⟨b, hb, h⟩ := Res.bind_eq_ok.mp h
    cases h
    have e1 := str_bar ha; have e2 := str_bar hb
    have e3 : c!"|" ∉ ADCGet.downText m.downloaded := by
      cases m.downloaded <;> simp [ADCGet.downText, utoa_bar]
    cases m.compressed <;> simp [rawFields, e1, e2, e3, utoa_bar, itoa_bar]
  | adcSnd m =>
    simp only [Msg.marshal, ADCSnd.marshal] at h
    obtain ⟨a, ha, h⟩ := Res.bind_eq_ok.mp h
    obtain ⟨b, hb, h⟩ := Res.bind_eq_ok.mp h
    cases h
    have e1 := str_bar ha; have e2 := str_bar hb
    cases m.compressed <;> simp [rawFields, e1, e2, utoa_bar]
  | direction m => cases h; cases m.upload <;> simp [rawFields, itoa_bar]
  | search m =>
    simp only [Msg.marshal, Search.marshal] at h
    obtain ⟨a, ha, h⟩ := Res.bind_eq_ok.mp h
    obtain ⟨b, hb, h⟩ := Res.bind_eq_ok.mp h
    cases h
    have e1 : c!"|" ∉ b := by
      unfold Search.what at hb
      split at hb
      · split at hb
        · cases hb
        · cases hb; simp [base32_bar]
      · obtain ⟨p, hp, hb⟩ := Res.bind_eq_ok.mp hb
        cases hb
        exact replace_bar (str_bar hp)
    have e2 : c!"|" ∉ m.flags := by
      unfold Search.flags
      cases m.sizeRestricted <;> cases m.isMaxSize <;> decide
    have e3 : c!"|" ∈ a ↔ c!"|" ∈ m.address := by
      unfold Search.who at ha
      split at ha
      · cases ha; rfl
      · obtain ⟨p, hp, ha⟩ := Res.bind_eq_ok.mp ha
        cases ha
        have := name_bar hp
        simp_all
    simp [rawFields, e1, e2, e3, utoa_bar]
  | sr m =>
    simp only [Msg.marshal, SR.marshal] at h
    obtain ⟨a, ha, h⟩ := Res.bind_eq_ok.mp h
    split at h
    · cases h
    · obtain ⟨ws, hws, h⟩ := Res.bind_eq_ok.mp h
      obtain ⟨n, hn, h⟩ := Res.bind_eq_ok.mp h
      obtain ⟨t, ht, h⟩ := Res.bind_eq_ok.mp h
      cases h
      have e1 := name_bar ha
      have e2 := join_bar (sep := c!"\\") (by decide) (strAll_bar hws)
      have e3 : c!"|" ∉ n := by
        unfold SR.source at hn
        split at hn
        · cases hn; simp [base32_bar]
        · exact str_bar hn
      have e4 : c!"|" ∉ t := by
        unfold SR.target at ht
        split at ht
        · cases ht; simp
        · obtain ⟨p, hp, ht⟩ := Res.bind_eq_ok.mp ht
          cases ht
          simp [name_bar hp]
      have e5 : c!"|" ∉ m.slots := by simp [SR.slots, itoa_bar]
      cases m.isDir <;> simp [rawFields, e1, e2, e3, e4, e5, utoa_bar]
  | sa m => cases h; simp [rawFields, base32_bar]
  | sp m =>
    simp only [Msg.marshal, SP.marshal] at h
    obtain ⟨a, ha, h⟩ := Res.bind_eq_ok.mp h
    cases h
    simp [rawFields, base32_bar, name_bar ha]
  | myINFO m =>
    simp only [Msg.marshal, MyINFO.marshal] at h
    obtain ⟨a, ha, h⟩ := Res.bind_eq_ok.mp h
    obtain ⟨b, hb, h⟩ := Res.bind_eq_ok.mp h
    obtain ⟨c, hc, h⟩ := Res.bind_eq_ok.mp h
    obtain ⟨d, hd, h⟩ := Res.bind_eq_ok.mp h
    cases h
    have e1 := name_bar ha; have e2 := str_bar hb; have e3 := str_bar hc; have e4 := str_bar hd
    have e5 : c!"|" ∈ [if m.flag = 0 then (1 : Byte) else m.flag] ↔ c!"|" = m.flag := by
      by_cases hf : m.flag = 0 <;> simp [hf]
    have e6 : c!"|" ∈ m.tag (ord m.extra) ↔ c!"|" ∈ m.client.name ∨ c!"|" ∈ m.client.version ∨ c!"|" = m.mode ∨
        c!"|" ∈ (ord m.extra).flatMap (fun e => e.1 ++ e.2) := by
      have : c!"|" ∈ [if m.mode ≠ 0 ∧ m.mode ≠ c!" " then m.mode else c!" "] ↔ c!"|" = m.mode := by
        by_cases hf : m.mode = 0 <;> by_cases hf' : m.mode = c!" " <;> simp [hf, hf']
      unfold MyINFO.tag
      simp only [List.mem_append, this, itoa_bar]
      simp [or_assoc]
    simp only [List.mem_append, e5, e6, e1, e2, e3, e4, utoa_bar, rawFields, List.mem_cons, List.not_mem_nil, or_false]
    generalize (c!"|" ∈ m.client.name) = p1
    generalize (c!"|" ∈ m.client.version) = p2
    generalize (c!"|" = m.mode) = p3
    generalize (c!"|" = m.flag) = p4
    generalize (c!"|" ∈ (ord m.extra).flatMap (fun e => e.1 ++ e.2)) = p5
    simp only [show (124 : Byte) ≠ 36 ∧ (124 : Byte) ≠ 65 ∧ (124 : Byte) ≠ 76 ∧ (124 : Byte) ≠ 32 ∧ (124 : Byte) ≠ 60 ∧ (124 : Byte) ≠ 62 from
      ⟨by decide, by decide, by decide, by decide, by decide, by decide⟩, false_or, or_false]
    by_cases p1 <;> by_cases p2 <;> by_cases p3 <;> by_cases p4 <;> by_cases p5 <;> simp [*]
  | raw t d => cases h; rfl

/-- The name in front of the payload: constant for the registered types, chosen by the user for a raw message. -/
theorem typ_bar {m : Msg} (h : m.isRaw = false) : c!"|" ∉ m.typ := by
  have e1 : ∀ k : ErrKind, c!"|" ∉ k.typ := by intro k; cases k <;> decide
  have e2 : ∀ k : NameKind, c!"|" ∉ k.typ := by intro k; cases k <;> decide
  have e3 : ∀ k : TextKind, c!"|" ∉ k.typ := by intro k; cases k <;> decide
  have e4 : ∀ k : ArgsKind, c!"|" ∉ k.typ := by intro k; cases k <;> decide
  have e5 : ∀ k : ValueKind, c!"|" ∉ k.typ := by intro k; cases k <;> decide
  have e6 : ∀ k : ListKind, c!"|" ∉ k.typ := by intro k; cases k <;> decide
  cases m <;> simp only [Msg.typ]
  all_goals first | exact e1 _ | exact e2 _ | exact e3 _ | exact e4 _ | exact e5 _ | exact e6 _ | (decide; done) | cases h

/-- A successfully encoded message is a body and a delimiter; the body holds a delimiter exactly if one of the fields that
are sent unescaped does (or the chosen name of a raw message). -/
theorem line_bars {enc : Codec} {ord : StrMap → StrMap} {m : Msg} {w : Bytes} (h : marshalMsg enc ord m = .ok w) :
    ∃ body, w = body ++ [c!"|"] ∧
      (c!"|" ∈ body ↔ c!"|" ∈ rawFields ord m ∨ (m.isRaw = true ∧ c!"|" ∈ m.typ)) := by
  unfold marshalMsg marshalTo at h
  obtain ⟨p, hp, h⟩ := Res.bind_eq_ok.mp h
  have hb := payload_bar hp
  have ht : c!"|" ∈ msgHead m.typ ↔ (m.isRaw = true ∧ c!"|" ∈ m.typ) := by
    unfold msgHead
    cases hr : m.isRaw with
    | false =>
      have := typ_bar hr
      split <;> simp [this]
    | true =>
      split
      · rename_i h0; simp [h0]
      · simp
  unfold finishMsg at h
  simp only [List.nil_append] at h
  split at h
  · rename_i h0
    split at h
    · cases h
    · rename_i hne
      cases h
      refine ⟨_, rfl, ?_⟩
      rw [h0] at hb
      simp only [List.not_mem_nil, false_iff] at hb
      rw [← ht]
      simp only [hb, false_or]
      have hh : msgHead m.typ = b!"$" ++ m.typ ++ b!" " := by
        unfold msgHead at hne ⊢
        split
        · rename_i h1; simp [h1] at hne
        · rfl
      rw [hh, List.dropLast_concat]
      simp
  · cases h
    refine ⟨_, rfl, ?_⟩
    rw [List.mem_append, hb, ht]
    exact Or.comm

/-- One message is one line, whenever the fields that are sent unescaped are free of the delimiter. -/
theorem one_line_partial {enc : Codec} {ord : StrMap → StrMap} {m : Msg} {w : Bytes} (h : marshalMsg enc ord m = .ok w)
    (hr : c!"|" ∉ rawFields ord m) (ht : m.isRaw = true → c!"|" ∉ m.typ) : ∃ body, w = body ++ [c!"|"] ∧ c!"|" ∉ body := by
  obtain ⟨body, hw, hb⟩ := line_bars h
  refine ⟨body, hw, ?_⟩
  rw [hb]
  rintro (h | ⟨h, h'⟩)
  · exact hr h
  · exact ht h h'

/-- Chats, private messages, commands, names, texts, lists of names, file requests and passive short searches: all their
fields are escaped or numbers. -/
def Escaped : Msg → Bool
  | .chat _ | .priv _ | .mcTo _ | .userCommand _ | .revConnectToMe _ | .errMsg _ _ | .name _ _ | .text _ _ | .noArgs _ | .names _ _
  | .adcGet _ | .adcSnd _ | .direction _ | .sp _ => true
  | _ => false

/-- For them there is no condition at all. -/
theorem one_line_always {enc : Codec} {ord : StrMap → StrMap} {m : Msg} {w : Bytes} (h : marshalMsg enc ord m = .ok w)
    (hm : Escaped m = true) : ∃ body, w = body ++ [c!"|"] ∧ c!"|" ∉ body := by
  refine one_line_partial h ?_ ?_ <;> cases m <;> first | (simp [Escaped] at hm; done) | (simp [rawFields]; done) | (intro h; cases h)

example : ∃ body, b!"<joe> a &#124; b|" = body ++ [c!"|"] ∧ c!"|" ∉ body :=
  one_line_always (enc := none) (ord := id) (m := .chat ⟨b!"joe", b!"a | b"⟩) (by decide +kernel) rfl

example : ∃ body, b!"$ConnectToMe joe 1.2.3.4:5|" = body ++ [c!"|"] ∧ c!"|" ∉ body :=
  one_line_partial (enc := none) (ord := id) (m := .connectToMe { targ := b!"joe", address := b!"1.2.3.4:5" }) (by decide +kernel)
    (by decide) (by decide)

/-- The general claim is false: an address, or a message flag, can carry a second command. -/
theorem injection :
    marshalMsg none id (.connectToMe { targ := b!"joe", address := b!"x|$Kick bob" }) = .ok b!"$ConnectToMe joe x|$Kick bob|" ∧
    marshalMsg none id (.sa { address := b!"x|$Quit joe" }) =
      .ok (b!"$SA AAAAAAAAAAAAAAAAAAAAAAAAAAAAAAAAAAAAAAA x|$Quit joe|") := by
  constructor <;> decide +kernel

/-! ## Messages without payload -/

/-- A message without payload that has a type ends in the delimiter right after its name. -/
theorem empty_payload {enc : Codec} {ord : StrMap → StrMap} {m : Msg} (ht : m.typ ≠ []) (h : m.marshal enc ord = .ok []) :
    marshalMsg enc ord m = .ok (b!"$" ++ m.typ ++ b!"|") := by
  unfold marshalMsg marshalTo
  rw [h]
  simp only [Res.ok_bind, finishMsg, msgHead, if_neg ht, if_true]
  rw [if_neg (by simp)]
  simp only [List.nil_append, List.dropLast_concat]
  rfl

example : marshalMsg none id (.noArgs .getNickList) = .ok b!"$GetNickList|" := empty_payload (by decide) rfl

/-- An empty chat message makes the encoder panic, or, in a buffer that is not empty, overwrite the last byte. -/
theorem empty_chat_panics : marshalMsg none id (.chat {}) = .panic ∧
    marshalTo none id b!"$Quit joe" (.chat {}) = .ok b!"$Quit jo|" := by
  constructor <;> decide +kernel

theorem str_marshal_ne {enc : Codec} {s : Bytes} : Str.marshal enc s ≠ .panic := by
  unfold Str.marshal Codec.run escapeString
  repeat' np

theorem name_marshal_ne {enc : Codec} {s : Bytes} : Name.marshal enc s ≠ .panic := by
  unfold Name.marshal Codec.run escapeName
  repeat' np

theorem marshalPath_ne {enc : Codec} {l : List Bytes} : marshalPath enc l ≠ .panic := by
  induction l with
  | nil => unfold marshalPath; np
  | cons a l ih => unfold marshalPath; repeat' first | exact str_marshal_ne | exact ih | np

theorem strAll_ne {enc : Codec} {l : List Bytes} : strAll enc l ≠ .panic := by
  induction l with
  | nil => unfold strAll; np
  | cons a l ih => unfold strAll; repeat' first | exact str_marshal_ne | exact ih | np

theorem marshalAll_ne {enc : Codec} {l : List Bytes} : Names.marshalAll enc l ≠ .panic := by
  induction l with
  | nil => unfold Names.marshalAll; np
  | cons a l ih => unfold Names.marshalAll; repeat' first | exact name_marshal_ne | exact ih | np

theorem userIP_marshal_ne {enc : Codec} {l : List UserAddress} : UserIP.marshal enc l ≠ .panic := by
  induction l with
  | nil => unfold UserIP.marshal; np
  | cons a l ih => unfold UserIP.marshal; repeat' first | exact name_marshal_ne | exact ih | np

/-- Encoding panics for no other message: only for an empty list of extensions and for an empty message without a type. -/
theorem encoder_panics {enc : Codec} {ord : StrMap → StrMap} {m : Msg} :
    marshalMsg enc ord m = .panic ↔ m = .supports [] ∨ (m.typ = [] ∧ m.marshal enc ord = .ok []) := by
  have hf : ∀ pre p, finishMsg pre p = .panic ↔ pre = [] ∧ p = [] := by
    intro pre p
    unfold finishMsg
    by_cases h1 : p = [] <;> by_cases h2 : pre = [] <;> simp [h1, h2]
  have hh : msgHead m.typ = [] ↔ m.typ = [] := by
    unfold msgHead
    split <;> simp_all
  by_cases hp : m.marshal enc ord = .panic
  · have h1 : marshalMsg enc ord m = .panic := by simp [marshalMsg, marshalTo, hp]
    simp only [h1, hp, true_iff]
    refine Or.inl ?_
    cases m <;> simp only [Msg.marshal] at hp
    case supports l =>
      unfold Supports.marshal at hp
      split at hp
      · rename_i h; rw [h]
      · cases hp
    all_goals
      refine absurd hp ?_
      try simp only [ChatMessage.marshal, PrivateMessage.marshal, MCTo.marshal, UserCommand.marshal, ConnectToMe.marshal,
        RevConnectToMe.marshal, ErrMsg.marshal, HubINFO.marshal, Names.marshal, ADCGet.marshal, ADCSnd.marshal, Search.marshal,
        Search.who, Search.what, SR.marshal, SR.source, SR.target, SP.marshal, MyINFO.marshal, NoArgs.marshal, RawValue.marshal,
        FailOver.marshal, Lock.marshal, Direction.marshal, SA.marshal]
      repeat' first | exact str_marshal_ne | exact name_marshal_ne | exact marshalPath_ne | exact strAll_ne | exact marshalAll_ne | exact userIP_marshal_ne | np
  · cases hm : m.marshal enc ord with
    | panic => exact absurd hm hp
    | err e =>
      simp only [marshalMsg, marshalTo, hm, Res.err_bind]
      constructor
      · intro h; cases h
      · rintro (rfl | ⟨-, h⟩)
        · exact absurd hm (by simp [Msg.marshal, Supports.marshal])
        · cases h
    | ok p =>
      simp only [marshalMsg, marshalTo, hm, Res.ok_bind, hf, List.nil_append, hh, Res.ok.injEq]
      constructor
      · exact Or.inr
      · rintro (rfl | h)
        · exact absurd hm (by simp [Msg.marshal, Supports.marshal])
        · exact h

end Verif.Props.NmdcLines
