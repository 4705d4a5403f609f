import Verif.Nmdc.ExactLemmas
import Verif.Props.NmdcReads
import Verif.Props.NmdcCtm
import Verif.Props.NmdcSimple
import Verif.Props.NmdcSearch
import Verif.Props.NmdcChat

/-!
# Which NMDC messages come back as they were (C91)
-/

namespace Verif.Props.NmdcExact

open Verif.Go Verif.Spec Verif.Nmdc Verif.Tiger Verif.Spec.NmdcReads Verif.Spec.NmdcWire

section
variable [HtmlEntities]

/-- The message is written, and what is written is read as the same message. -/
def Comes (ord : StrMap → StrMap) (m : Msg) : Prop := ∃ w, m.marshal none ord = .ok w ∧ m.fresh.unmarshal none w = .ok m

theorem comes_iff {ord : StrMap → StrMap} {m : Msg} : Comes ord m ↔ ∃ w, m.marshal none ord = .ok w ∧ Reads none m.fresh w m := by
  simp only [Comes, NmdcReads.message_reads]

variable {ord : StrMap → StrMap}

theorem name_back {k : NameKind} {n : Bytes} : Comes ord (.name k n) ↔ NmdcBack.Name n := by
  simp only [comes_iff, Msg.marshal, Msg.fresh, Reads]
  constructor
  · rintro ⟨w, hw, x, ⟨⟩, h⟩
    exact (nam_back hw).mp h
  · intro h
    exact ⟨_, name_written h, _, rfl, name_reads_back h⟩

theorem text_back {k : TextKind} {s : Bytes} : Comes ord (.text k s) ↔ NmdcBack.Text s := by
  simp only [comes_iff, Msg.marshal, Msg.fresh, Reads]
  constructor
  · rintro ⟨w, hw, x, ⟨⟩, h⟩
    exact (str_back hw).mp h
  · intro h
    exact ⟨_, text_written h, _, rfl, text_reads_back h⟩

theorem rctm_back {m : RevConnectToMe} : Comes ord (.revConnectToMe m) ↔ NmdcBack.Rctm m := by
  simp only [comes_iff, Msg.marshal, Msg.fresh, Reads, RevConnectToMe.marshal, Res.bind_eq_ok, Res.pure_eq, Res.ok.injEq]
  constructor
  · rintro ⟨_, ⟨x, hx, y, hy, rfl⟩, _, ⟨⟩, a, b, hf, ha, hb⟩
    obtain ⟨rfl, rfl⟩ := name_first (by decide) hx hf rfl ha
    refine ⟨(nam_back hx).mp ha, (nam_back hy).mp hb, fun hs => ?_⟩
    obtain ⟨-, -, rfl⟩ := name_wire.mp hx
    exact (first_single.mp hf).2 ((mem_escName (by decide) (by decide)).mpr hs)
  · rintro ⟨h1, h2, h3⟩
    refine ⟨_, ⟨_, name_written h1, _, name_written h2, rfl⟩, _, rfl, _, _, first_single.mpr ⟨rfl, ?_⟩, name_reads_back h1, name_reads_back h2⟩
    rwa [mem_escName (by decide) (by decide)]

theorem mcTo_back {m : MCTo} : Comes ord (.mcTo m) ↔ NmdcBack.ToOne m := by
  simp only [comes_iff, Msg.marshal, Msg.fresh, Reads, MCTo.marshal, Res.bind_eq_ok, Res.pure_eq, Res.ok.injEq]
  constructor
  · rintro ⟨_, ⟨x, hx, y, hy, z, hz, rfl⟩, _, ⟨⟩, a, b, t, r, hf, hf', ha, hb, ht⟩
    obtain ⟨rfl, rfl⟩ := name_first (by decide) hx hf (y := y ++ b!" " ++ z) (by simp) ha
    obtain ⟨rfl, rfl⟩ := name_first (by decide) hy hf' rfl hb
    refine ⟨(nam_back hx).mp ha, (nam_back hy).mp hb, (str_back hz).mp ht, fun hs => ?_⟩
    obtain ⟨-, -, rfl⟩ := name_wire.mp hy
    exact (first_single.mp hf').2 ((mem_escName (by decide) (by decide)).mpr hs)
  · rintro ⟨h1, h2, h3, h4⟩
    refine ⟨_, ⟨_, name_written h1, _, name_written h2, _, text_written h3, rfl⟩, _, rfl, escName m.to, escName m.frm, escText m.text,
      escName m.frm ++ b!" " ++ escText m.text, ?_, first_single.mpr ⟨rfl, ?_⟩, name_reads_back h1, name_reads_back h2, text_reads_back h3⟩
    · have := first_marked (p := b!" ") (q := []) (x := c!"$") (a := escName m.to) (r := escName m.frm ++ b!" " ++ escText m.text)
        (fun h => (name_clean h1 _ h).1 rfl) (by decide)
      simpa using this
    · rwa [mem_escName (by decide) (by decide)]

theorem err_back {k : ErrKind} {e : Option Bytes} : Comes ord (.errMsg k e) ↔ NmdcBack.Err e := by
  simp only [comes_iff, Msg.marshal, Msg.fresh, Reads, ErrMsg.marshal]
  cases e with
  | none =>
    simp only [NmdcBack.Err, Option.mem_def, reduceCtorEq, false_implies, implies_true, iff_true]
    refine ⟨_, rfl, _, rfl, [], ?_, .inl ⟨rfl, rfl⟩⟩
    have : NmdcBack.Text [] := ⟨by simp, ⟨[], by simp, rfl⟩, fun e he a b hab => by
      have := congrArg List.length hab
      have h1 : ∀ e ∈ legacyCodes, 1 ≤ e.1.length := by decide
      have := h1 e he
      simp at *
      omega⟩
    exact text_reads_back this
  | some t =>
    simp only [NmdcBack.Err, Option.mem_def, Option.some.injEq, forall_eq']
    constructor
    · rintro ⟨w, hw, _, ⟨⟩, s, hs, ⟨-, h⟩ | ⟨h0, h⟩⟩
      · cases h
      · cases h
        exact ⟨h0, (str_back hw).mp hs⟩
    · rintro ⟨h0, h⟩
      exact ⟨_, text_written h, _, rfl, t, text_reads_back h, .inr ⟨h0, rfl⟩⟩

theorem priv_back {m : PrivateMessage} : Comes ord (.priv m) ↔ NmdcBack.Priv m := by
  simp only [comes_iff, Msg.marshal, Msg.fresh, Reads, PrivateMessage.marshal, Res.bind_eq_ok, Res.pure_eq, Res.ok.injEq]
  constructor
  · rintro ⟨_, ⟨x, hx, y, hy, z, hz, v, hv, rfl⟩, _, ⟨⟩, a, b, c, t, r1, r2, hf, hf', hf'', ha, hb, hc, ht⟩
    obtain ⟨rfl, rfl⟩ := name_first (by decide) hx hf (y := y ++ b!" $<" ++ z ++ b!"> " ++ v) (by simp) ha
    obtain ⟨rfl, rfl⟩ := name_first (by decide) hy hf' (y := z ++ b!"> " ++ v) (by simp) hb
    obtain ⟨rfl, rfl⟩ := name_first (by decide) hz hf'' rfl hc
    refine ⟨(nam_back hx).mp ha, (nam_back hy).mp hb, (nam_back hz).mp hc, (str_back hv).mp ht, fun p q hpq => ?_⟩
    obtain ⟨-, -, rfl⟩ := name_wire.mp hx
    have he : escName m.to ++ b!" " = escName p ++ b!" From: " ++ escName q := by
      have := congrArg escName hpq
      simp only [escName_eq, escWith_append] at this
      have e1 : escWith escapeCharName b!" " = b!" " := rfl
      have e2 : escWith escapeCharName b!" From: " = b!" From: " := rfl
      rw [e1, e2] at this
      simpa [escName_eq] using this
    have := hf.2 (escName p) (escName q ++ b!"From: " ++ b ++ b!" $<" ++ c ++ b!"> " ++ t) (by
      calc _ = (escName m.to ++ b!" ") ++ b!"From: " ++ b ++ b!" $<" ++ c ++ b!"> " ++ t := by simp
        _ = _ := by rw [he]; simp)
    have hl := congrArg List.length he
    simp at hl
    omega
  · rintro ⟨h1, h2, h3, h4, h5⟩
    refine ⟨_, ⟨_, name_written h1, _, name_written h2, _, name_written h3, _, text_written h4, rfl⟩, _, rfl, escName m.to, escName m.frm,
      escName m.name, escText m.text, escName m.frm ++ b!" $<" ++ escName m.name ++ b!"> " ++ escText m.text,
      escName m.name ++ b!"> " ++ escText m.text, ?_, ?_, ?_, name_reads_back h1, name_reads_back h2, name_reads_back h3, text_reads_back h4⟩
    · have := first_from (e := escName m.to) (r := escName m.frm ++ b!" $<" ++ escName m.name ++ b!"> " ++ escText m.text) (fun p q hpq => ?_)
      · simpa using this
      · rw [escName_eq] at hpq
        obtain ⟨p', q', h⟩ := pattern_escWith goodName (name_esc_free (c := c!" ") (by decide)) (k := b!"From: ") (s := m.to ++ b!" ") (a := p) (b := q)
          (by decide) (by rw [escWith_append, show escWith escapeCharName b!" " = b!" " from rfl, hpq])
        exact h5 _ _ h
    · have := first_marked (p := b!" ") (q := b!"<") (x := c!"$") (a := escName m.frm) (r := escName m.name ++ b!"> " ++ escText m.text)
        (fun h => (name_clean h2 _ h).1 rfl) (by decide)
      simpa using this
    · have := first_marked (p := []) (q := b!" ") (x := c!">") (a := escName m.name) (r := escText m.text)
        (fun h => (name_clean h3 _ h).2.2 rfl) (by decide)
      simpa using this

omit [HtmlEntities] in
theorem split_unique {d n t n' t' : Bytes} (hd : d ≠ []) (h : ChatSplit d n t) (h' : ChatSplit d n' t') : n = n' ∧ t = t' := by
  obtain ⟨i, off, e, h1, h2⟩ := NmdcReads.scan_complete hd h
  obtain ⟨i', off', e', h1', h2'⟩ := NmdcReads.scan_complete hd h'
  rw [e] at e'
  cases e'
  exact ⟨h1.symm.trans h1', h2.symm.trans h2'⟩

theorem chat_back {m : ChatMessage} : Comes ord (.chat m) ↔ NmdcBack.Chat m := by
  obtain ⟨name, text⟩ := m
  simp only [comes_iff, Msg.marshal, Msg.fresh, Reads, ChatMessage.marshal, NmdcBack.Chat]
  by_cases hn : name = []
  · subst hn
    simp only [ne_eq, not_true_eq_false, if_false, Res.bind_eq_ok, Res.pure_eq, Res.ok.injEq, false_and, or_false, true_and]
    have hhead : Begins b!"<" (escText text) ↔ Begins b!"<" text := by
      constructor
      · rintro ⟨r, hr⟩
        obtain ⟨t, ht⟩ := prefix_escWith goodString (k := b!"<") (s := text) (by decide) ⟨r, by rw [← escText_eq, hr]⟩
        exact ⟨t, ht.symm⟩
      · rintro ⟨r, rfl⟩
        exact ⟨escText r, rfl⟩
    constructor
    · rintro ⟨_, ⟨p, rfl, x, hx, rfl⟩, _, ⟨⟩, ⟨h1, -, h2⟩ | ⟨r, n, t, h1, h2, h3, h4⟩⟩
      · obtain ⟨-, rfl⟩ := str_wire.mp hx
        exact ⟨(str_back hx).mp h2, fun h => h1 (hhead.mpr h)⟩
      · exfalso
        obtain ⟨-, rfl⟩ := str_wire.mp hx
        have hb : Begins b!"<" text := hhead.mp ⟨r, h1⟩
        have hsuf : ∃ q, r = q ++ t := by
          cases h2 with
          | empty => exact ⟨[], rfl⟩
          | @space n t r => exact ⟨_, rfl⟩
          | @line n l x => exact ⟨n ++ b!">", by simp⟩
          | final => exact ⟨_, (List.take_append_drop _ _).symm⟩
        obtain ⟨q, rfl⟩ := hsuf
        exact text_no_suffix hb (q := b!"<" ++ q) (by simp) (by simpa using h1) h4.2
    · rintro ⟨h1, h2⟩
      refine ⟨_, ⟨_, rfl, _, text_written h1, rfl⟩, _, rfl, .inl ⟨fun h => h2 (hhead.mp h), rfl, text_reads_back h1⟩⟩
  · simp only [ne_eq, hn, not_false_eq_true, if_true, Res.bind_eq_ok, Res.pure_eq, Res.ok.injEq, false_and, false_or, true_and]
    have key : ∀ {n t : Bytes}, Name.marshal none name = .ok n → ChatSplit (n ++ b!"> " ++ t) n t := by
      intro n t h
      have hc := name_marshal_clean h
      have := ChatSplit.space (n := n) (t := t) (r := 32) (by decide) (fun h => (hc _ h).2.2.2.2.2.1 rfl) (fun h => (hc _ h).2.2.2.2.2.2.1 rfl)
        (fun u v e => absurd rfl (hc c!">" (by rw [e]; simp)).2.2.2.1)
      have e : utf8 32 = b!" " := by decide
      rw [e] at this
      simpa using this
    constructor
    · rintro ⟨_, ⟨n, hx, _, rfl, t, ht, rfl⟩, _, ⟨⟩, ⟨h1, -⟩ | ⟨r, n', t', h1, h2, h3, h4⟩⟩
      · exact absurd ⟨n ++ b!"> " ++ t, by simp⟩ h1
      · have e : r = n ++ b!"> " ++ t := by simpa using h1.symm
        subst e
        obtain ⟨rfl, rfl⟩ := split_unique (by simp) h2 (key hx)
        exact ⟨(str_back ht).mp h4, (nam_back hx).mp h3⟩
    · rintro ⟨h1, h2⟩
      exact ⟨_, ⟨_, name_written h2, _, rfl, _, text_written h1, rfl⟩, _, rfl,
        .inr ⟨escName name ++ b!"> " ++ escText text, _, _, by simp, key (name_written h2), name_reads_back h2, text_reads_back h1⟩⟩

/-- The letters after an address. -/
def ctmEnd (k : Int) (s : Bool) : Bytes := (if k = 1 then b!"N" else if k = 2 then b!"R" else []) ++ if s then b!"S" else []

omit [HtmlEntities] in
theorem ctmAddress_end {x a : Bytes} {k : Int} {s : Bool} (h : CtmAddress x a k s) : x = a ++ ctmEnd k s := by
  cases h <;> simp [ctmEnd]

theorem ctm_back {m : ConnectToMe} : Comes ord (.connectToMe m) ↔ NmdcBack.Ctm m := by
  constructor
  · simp only [comes_iff, Msg.marshal, Msg.fresh, Reads]
    rintro ⟨w, hw, _, ⟨⟩, a, r, addr, s, hf, ha, hadr, hs, hr⟩
    obtain ⟨targ, src, address, kind, secure⟩ := m
    have hacc := NmdcCtm.ctm_accepted.mp ⟨w, hw⟩
    simp only [Bool.or_false] at hf ha hadr hs hr hacc
    subst hs
    obtain ⟨ht, hk, hsrc, ⟨t, het⟩, hn⟩ := hacc
    -- what is written
    have hw' : (kind ≠ 1 ∧ w = t ++ b!" " ++ (address ++ ctmEnd kind secure)) ∨
        (kind = 1 ∧ ∃ n, Name.marshal none src = .ok n ∧ w = t ++ b!" " ++ (address ++ ctmEnd kind secure ++ b!" " ++ n)) := by
      unfold ConnectToMe.marshal at hw
      simp only [ht, if_false, het, Res.ok_bind] at hw
      by_cases h1 : kind = 1
      · subst h1
        have h2 : src ≠ [] := hsrc.mpr rfl
        obtain ⟨n, hn⟩ := hn rfl
        simp [h2, hn] at hw
        exact .inr ⟨rfl, n, hn, by simp [← hw, ctmEnd]⟩
      · have h2 : src = [] := by
          by_cases h : src = []
          · exact h
          · exact absurd (hsrc.mp h) h1
        rcases hk with h | h | h
        · simp [h, h2] at hw
          exact .inl ⟨h1, by simp [← hw, ctmEnd, h]⟩
        · exact absurd h h1
        · simp [h, h2] at hw
          exact .inl ⟨h1, by simp [← hw, ctmEnd, h]⟩
    have hend := ctmAddress_end hadr
    have hone : ∀ y, w = t ++ b!" " ++ y → a = t ∧ r = y := fun y hy => name_first (by decide) het hf hy ha
    have hsp : c!" " ∉ targ := by
      have : a = t := by
        rcases hw' with ⟨-, h⟩ | ⟨-, n, -, h⟩ <;> exact (hone _ h).1
      subst this
      obtain ⟨-, -, rfl⟩ := name_wire.mp het
      have := (first_single.mp hf).2
      rwa [mem_escName (by decide) (by decide)] at this
    have hnt : NmdcBack.Name targ := by
      have : a = t := by
        rcases hw' with ⟨-, h⟩ | ⟨-, n, -, h⟩ <;> exact (hone _ h).1
      subst this
      exact (nam_back het).mp ha
    rcases hw' with ⟨h1, h⟩ | ⟨h1, n, hn', h⟩
    · obtain ⟨-, rfl⟩ := hone _ h
      have h2 : src = [] := by
        by_cases h : src = []
        · exact h
        · exact absurd (hsrc.mp h) h1
      rcases hr with ⟨h3, h4, h5⟩ | ⟨b, h3, h4⟩
      · have h3 := absent_single.mp h3
        refine ⟨ht, hnt, hsp, fun h => h3 (by simp [h]), ?_⟩
        rcases hk with h | h | h
        · refine .inl ⟨h, h2, ?_⟩
          subst h
          cases hadr with
          | plain hp => exact fun b hb => ⟨(hp b hb).2.1, (hp b hb).2.2, fun _ => (hp b hb).1⟩
          | secure hp => exact fun b hb => ⟨(hp b hb).1, (hp b hb).2, fun h => by cases h⟩
        · exact absurd h h1
        · exact .inr (.inr ⟨h, h2⟩)
      · exfalso
        have := congrArg List.length h3.1
        rw [hend] at this
        simp at this
    · obtain ⟨-, rfl⟩ := hone _ h
      rcases hr with ⟨h3, -⟩ | ⟨b, h3, h4⟩
      · exact absurd (by simp) (absent_single.mp h3)
      · rw [hend] at h3
        have h5 := first_single.mp h3
        have e : b = n := by
          have := h5.1
          simpa using this.symm
        subst e
        exact ⟨ht, hnt, hsp, fun h => h5.2 (by simp [h]), .inr (.inl ⟨h1, hsrc.mpr h1, (nam_back hn').mp h4⟩)⟩
  · rintro ⟨h1, h2, h3, h4, h5⟩
    have hwr : ∃ w, m.marshal none = .ok w := by
      refine NmdcCtm.ctm_accepted.mpr ⟨h1, ?_, ?_, ⟨_, name_written h2⟩, ?_⟩
      · rcases h5 with h | h | h
        · exact .inl h.1
        · exact .inr (.inl h.1)
        · exact .inr (.inr h.1)
      · rcases h5 with h | h | h <;> simp [h]
      · rcases h5 with h | h | h
        · intro h'; rw [h.1] at h'; cases h'
        · exact fun _ => ⟨_, name_written h.2.2⟩
        · intro h'; rw [h.1] at h'; cases h'
    obtain ⟨w, hw⟩ := hwr
    refine ⟨w, hw, ?_⟩
    have := NmdcCtm.ctm_roundtrip lossless_nil (m := m) (w := w) (nameOk_back h2) (by
      rcases h5 with h | h | h
      · rw [h.2.1]; exact nameOk_of (by decide +kernel)
      · exact nameOk_back h.2.2
      · rw [h.2]; exact nameOk_of (by decide +kernel)) (fun n hn => by
        obtain ⟨-, -, rfl⟩ := name_wire.mp hn
        rwa [mem_escName (by decide) (by decide)]) h4 (by
        intro hk
        rcases h5 with h | h | h
        · refine ⟨fun h' => (h.2.2 _ h').1 rfl, fun h' => (h.2.2 _ h').2.1 rfl, fun hs h' => (h.2.2 _ h').2.2 hs rfl⟩
        · rw [h.1] at hk; cases hk
        · rw [h.1] at hk; cases hk) hw
    simp only [Msg.fresh, Msg.unmarshal, this, Res.ok_bind, Res.pure_eq]

/-! ## Small messages -/

theorem plain_back : (∀ k, Comes ord (.noArgs k)) ∧ (∀ k s, Comes ord (.value k s)) ∧ (∀ m, Comes ord (.sa m)) ∧ ∀ t d, Comes ord (.raw t d) := by
  refine ⟨fun k => ⟨_, rfl, rfl⟩, fun k s => ⟨_, rfl, rfl⟩, fun m => ?_, fun t d => ⟨_, rfl, rfl⟩⟩
  obtain ⟨w, h1, h2⟩ := NmdcSearch.sa_roundtrip m
  exact ⟨w, h1, by simp [Msg.fresh, Msg.unmarshal, h2]⟩

theorem sp_back {m : SP} : Comes ord (.sp m) ↔ NmdcBack.Name m.user := by
  constructor
  · simp only [comes_iff, Msg.marshal, Msg.fresh, Reads, SP.marshal, Res.bind_eq_ok, Res.pure_eq, Res.ok.injEq]
    rintro ⟨_, ⟨n, hn, rfl⟩, _, ⟨⟩, h, n', hl, he, -, hr⟩
    have := m.tth.base32_length
    rw [List.append_assoc, List.append_assoc] at he
    obtain ⟨-, he⟩ := List.append_inj he (by omega)
    have he := List.append_cancel_left he
    subst he
    exact (nam_back hn).mp hr
  · intro h
    have hw : m.marshal none = .ok (m.tth.base32 ++ b!" " ++ escName m.user) := by
      simp [SP.marshal, name_written h]
    refine ⟨_, hw, ?_⟩
    have := NmdcSearch.sp_roundtrip lossless_nil (nameOk_back h) hw
    simp only [Msg.fresh, Msg.unmarshal, this, Res.ok_bind, Res.pure_eq]

theorem hosts_back {l : List Bytes} : Comes ord (.failOver l) ↔ NmdcBack.Hosts l := by
  simp only [comes_iff, Msg.marshal, Msg.fresh, Reads, FailOver.marshal, Res.ok.injEq, NmdcBack.Hosts]
  rw [← split_back]
  constructor
  · rintro ⟨_, rfl, _, ⟨⟩, h⟩
    exact parts_split.mp h
  · intro h
    exact ⟨_, rfl, _, rfl, parts_split.mpr h⟩

theorem words_back {l : List Bytes} : Comes ord (.supports l) ↔ NmdcBack.Words l := by
  constructor
  · simp only [comes_iff, Msg.marshal, Msg.fresh, Reads]
    rintro ⟨w, hw, ps, h, hp⟩
    cases h
    have hne : ps.filter (· ≠ []) ≠ [] := by
      intro h
      rw [h] at hw
      simp [Supports.marshal] at hw
    refine ⟨hne, fun x hx => ?_⟩
    simp only [List.mem_filter, decide_eq_true_eq] at hx
    exact ⟨hx.2, hp.2.1 x hx.1⟩
  · rintro ⟨h1, h2⟩
    have hw : Supports.marshal l = .ok (join l c!" ") := by simp [Supports.marshal, h1]
    refine ⟨_, hw, ?_⟩
    simp [Msg.fresh, Msg.unmarshal, NmdcSimple.supports_roundtrip h2 hw]

theorem lock_back {m : Lock} : Comes ord (.lock m) ↔ NmdcBack.Lok m := by
  constructor
  · simp only [comes_iff, Msg.marshal, Msg.fresh, Reads, Lock.marshal, Res.ok.injEq]
    rintro ⟨_, rfl, _, ⟨⟩, h⟩
    have body : ∀ r tail, r = m.lock ++ tail → ReadsLockBody r m → c!" " ∉ m.lock ∧ Absent b!"Ref=" m.pk := by
      intro r tail hr h
      rcases h with ⟨h1, h2, h3, h4⟩ | ⟨r', k, h1, -, h3⟩
      · refine ⟨by rw [h2]; exact absent_single.mp h1, ?_⟩
        rw [h3]
        intro a b hab
        simp at hab
      · refine ⟨(first_single.mp h1).2, ?_⟩
        rcases h3 with h3 | ⟨h3, h4, -⟩
        · intro a b hab
          have := h3.2 a (b ++ b!"Ref=" ++ m.ref) (by rw [h3.1, hab]; simp)
          rw [hab] at this
          simp at this
          omega
        · rw [h4]; exact h3
    rcases h with ⟨r, h1, h2, h3⟩ | ⟨h1, h2, h3⟩
    · rw [h2] at h1
      have e : r = m.lock ++ ((if m.pk ≠ [] then b!" Pk=" ++ m.pk else []) ++
          (if m.ref ≠ [] then (if m.pk = [] then b!" " else []) ++ b!"Ref=" ++ m.ref else [])) := by
        have h1 := h1.symm
        simp only [Bool.not_false, if_true, extLockPref, List.append_assoc] at h1
        have := List.append_cancel_left h1
        rw [this]; simp
      obtain ⟨h4, h5⟩ := body r _ e h3
      exact ⟨h4, h5, fun h => by rw [h2] at h; cases h⟩
    · have e := h3
      rw [h2] at e h1
      simp only [Bool.not_true, Bool.false_eq_true, if_false, List.nil_append] at e h1
      rw [List.append_assoc] at e h1
      obtain ⟨h4, h5⟩ := body _ _ rfl e
      refine ⟨h4, h5, fun _ ⟨x, hx⟩ => h1 ⟨x ++ _, by rw [hx, List.append_assoc]⟩⟩
  · rintro ⟨h1, h2, h3⟩
    refine ⟨_, rfl, ?_⟩
    have := NmdcSimple.lock_roundtrip (m := m) h1 (fun h ⟨r, hr⟩ => h3 h ⟨r, hr.symm⟩) (fun ⟨a, b, hab⟩ => h2 a b hab.symm) rfl
    simp only [Msg.fresh, Msg.unmarshal, this, Res.ok_bind, Res.pure_eq]

theorem names_back {k : ListKind} {l : List Bytes} : Comes ord (.names k l) ↔ NmdcBack.Names l := by
  constructor
  · simp only [comes_iff, Msg.marshal, Msg.fresh, Reads]
    rintro ⟨w, hw, _, ⟨⟩, r, hr, h⟩
    by_cases hl : l = []
    · subst hl; exact ⟨by simp, by simp⟩
    · simp only [Names.marshal, hl, if_false] at hw
      obtain ⟨ws, h2, rfl⟩ := marshalAll_ok hw
      have hne : ws ≠ [] := by rintro rfl; have := h2.length; simp at this; exact hl this
      rw [joinDD_append hne] at hr
      replace hr : trimSuffix (joinDD ws ++ dd) dd = r := without_iff.mp hr
      rw [trimSuffix_append] at hr
      subst hr
      rcases h with ⟨-, h⟩ | ⟨h3, ps, h4, h5⟩
      · exact absurd h hl
      · have hcl : ∀ p ∈ ws, c!"$" ∉ p := by
          clear h4 h5 h3 hne hw hl
          induction h2 with
          | nil => simp
          | cons h _ ih =>
            intro p hp
            rcases List.mem_cons.mp hp with rfl | hp
            · exact fun h' => (name_marshal_clean h _ h').1 rfl
            · exact ih p hp
        rw [cuts_iff, splitDD_join hne hcl] at h4
        subst h4
        refine ⟨?_, ?_⟩
        · clear hcl h3 hne hw hl
          induction h2 with
          | nil => simp
          | cons h _ ih =>
            cases h5 with
            | cons h6 h7 =>
              intro n hn
              rcases List.mem_cons.mp hn with rfl | hn
              · exact (nam_back h).mp h6
              · exact ih h7 n hn
        · rintro rfl
          cases h2 with
          | cons h h' =>
            cases h'
            simp [name_wire, escName] at h
            subst h
            exact h3 rfl
  · rintro ⟨h1, h2⟩
    have hw : ∃ w, Names.marshal none l = .ok w := by
      unfold Names.marshal
      by_cases hl : l = []
      · exact ⟨_, by rw [if_pos hl]⟩
      · rw [if_neg hl]
        clear hl h2
        induction l with
        | nil => exact ⟨_, rfl⟩
        | cons n l ih =>
          obtain ⟨w, hw⟩ := ih (fun n hn => h1 n (by simp [hn]))
          exact ⟨escName n ++ dd ++ w, by simp [Names.marshalAll, hw, name_written (h1 n (by simp))]⟩
    obtain ⟨w, hw⟩ := hw
    refine ⟨w, hw, ?_⟩
    have := NmdcSimple.names_roundtrip lossless_nil (fun n hn => nameOk_back (h1 n hn)) (fun n hn h => by
      have := (name_wire.mp h).2.2
      have : n = [] := by
        cases n with
        | nil => rfl
        | cons b n =>
          have hl := escWith_length goodName (b :: n)
          rw [← escName_eq, ← this] at hl
          simp at hl
      subst this
      exact h2 hn) hw
    simp only [Msg.fresh, Msg.unmarshal, this, Res.ok_bind, Res.pure_eq]

theorem address_one {n w ip : Bytes} (hw : Name.marshal none n = .ok w) :
    ReadsAddress none (w ++ b!" " ++ ip) ⟨n, ip⟩ ↔ NmdcBack.Name n ∧ c!" " ∉ ip := by
  constructor
  · rintro (⟨n', h1, h2⟩ | ⟨h1, -⟩)
    · obtain ⟨h3, h4⟩ := last_byte.mp h1
      have e : w = n' := by
        have h4 : w ++ (b!" " ++ ip) = n' ++ (b!" " ++ ip) := by simpa using h4
        exact List.append_cancel_right h4
      subst e
      exact ⟨(nam_back hw).mp h2, h3⟩
    · exact absurd (by simp) (absent_single.mp h1)
  · rintro ⟨h1, h2⟩
    exact .inl ⟨w, last_byte.mpr ⟨h2, by simp⟩, (nam_back hw).mpr h1⟩

/-- The address is not read from a part of it. -/
theorem address_cut {n w ip p r : Bytes} (hw : Name.marshal none n = .ok w) (hp : w ++ b!" " ++ ip = p ++ c!"$" :: r) :
    ¬ ReadsAddress none p ⟨n, ip⟩ := by
  have hd : c!"$" ∉ w ++ b!" " := by
    intro h
    simp only [List.mem_append] at h
    rcases h with h | h
    · exact (name_marshal_clean hw _ h).1 rfl
    · exact absurd h (by decide)
  obtain ⟨q, rfl, rfl⟩ : ∃ q, p = w ++ b!" " ++ q ∧ ip = q ++ c!"$" :: r := by
    rcases List.append_eq_append_iff.mp hp with ⟨q, h1, h2⟩ | ⟨q, h1, h2⟩
    · exact ⟨q, h1, h2⟩
    · cases q with
      | nil => exact ⟨[], by rw [List.append_nil] at h1 ⊢; exact h1.symm, h2.symm⟩
      | cons y q =>
        simp only [List.cons_append, List.cons.injEq] at h2
        exact absurd (by rw [h1, h2.1]; simp) hd
  rintro (⟨n', h3, -⟩ | ⟨h3, -⟩)
  · have h4 := h3.2 w q (by simp)
    have h5 := congrArg List.length h3.1
    simp at h5
    omega
  · exact absurd (by simp) (absent_single.mp h3)

theorem addresses_cut {l : List UserAddress} {ws : List Bytes} (hne : l ≠ [])
    (h : All2 (fun a x => ∃ n, Name.marshal none a.name = .ok n ∧ x = n ++ b!" " ++ a.ip) l ws) :
    (∃ ps, Cuts b!"$$" (joinDD ws) ps ∧ ReadsAddresses none ps l) ↔ NmdcBack.Addresses l := by
  have clean : ∀ {s n : Bytes}, Name.marshal none s = .ok n → c!"$" ∉ n ++ b!" " := by
    intro s n hn hm
    simp only [List.mem_append] at hm
    rcases hm with hm | hm
    · exact (name_marshal_clean hn _ hm).1 rfl
    · exact absurd hm (by decide)
  induction h with
  | nil => simp at hne
  | @cons a x l ws ha h ih =>
    obtain ⟨n, hn, rfl⟩ := ha
    cases h with
    | nil =>
      simp only [joinDD, NmdcBack.Addresses, NmdcBack.Address, List.append_nil]
      rw [← absent_skip (clean hn)]
      constructor
      · rintro ⟨ps, h1, h2⟩
        cases h2 with
        | cons h3 h4 =>
          cases h4
          cases h1 with
          | last h5 =>
            obtain ⟨h6, h7⟩ := (address_one hn).mp h3
            exact ⟨h6, h7, h5⟩
          | more _ h6 => cases h6
      · rintro ⟨h1, h2, h3⟩
        exact ⟨_, .last h3, .cons ((address_one hn).mpr ⟨h1, h2⟩) .nil⟩
    | @cons b y l ws hb h =>
      have ih := ih (by simp)
      rw [joinDD, NmdcBack.Addresses, ← propext ih, NmdcBack.Address, ← absent_skip (clean hn)]
      have e : n ++ b!" " ++ (a.ip ++ b!"$") = (n ++ b!" " ++ a.ip) ++ b!"$" := by simp
      rw [e, ← first_dd (y := joinDD (y :: ws))]
      constructor
      · rintro ⟨ps, h1, h2⟩
        cases h1 with
        | last h3 => exact absurd rfl (h3 _ _)
        | @more _ p r ps h3 h4 =>
          cases h2 with
          | cons h5 h6 =>
            rcases first_before h3 (x := n ++ b!" " ++ a.ip) (y := joinDD (y :: ws)) rfl with ⟨rfl, rfl⟩ | ⟨r', hr'⟩
            · obtain ⟨h7, h8⟩ := (address_one hn).mp h5
              exact ⟨⟨h7, h8, h3⟩, ps, h4, h6⟩
            · exact absurd h5 (address_cut hn hr')
      · rintro ⟨⟨h1, h2, h3⟩, ps, h4, h5⟩
        exact ⟨_, .more h3 h4, .cons ((address_one hn).mpr ⟨h1, h2⟩) h5⟩

theorem userIP_back {l : List UserAddress} : Comes ord (.userIP l) ↔ NmdcBack.Addresses l := by
  simp only [comes_iff, Msg.marshal, Msg.fresh, Reads, Msg.userIP.injEq]
  by_cases hl : l = []
  · subst hl
    simp only [NmdcBack.Addresses, iff_false]
    rintro ⟨w, -, _, rfl, r, s, ps, -, -, h3, h4⟩
    cases h4
    cases h3
  have trims : ∀ {ws : List Bytes}, ws ≠ [] → Without b!"\r" (ws.flatMap (· ++ dd)) (joinDD ws ++ b!"$$") := by
    intro ws hws
    rw [joinDD_append hws]
    refine .absent fun r hr => ?_
    have := congrArg List.getLast? hr
    simp [dd] at this
  constructor
  · rintro ⟨w, hw, _, rfl, r, s, ps, h1, h2, h3, h4⟩
    obtain ⟨ws, h5, rfl⟩ := userIP_marshal_ok hw
    have hws : ws ≠ [] := by rintro rfl; have := h5.length; simp at this; exact hl this
    have e1 : r = joinDD ws ++ b!"$$" := (without_iff.mp h1).symm.trans (without_iff.mp (trims hws))
    subst e1
    have e2 : s = joinDD ws := (without_iff.mp h2).symm.trans (trimSuffix_append _ _)
    subst e2
    exact (addresses_cut hl h5).mp ⟨ps, h3, h4⟩
  · intro h
    have hn : ∀ a ∈ l, NmdcBack.Name a.name := by
      clear hl
      induction l with
      | nil => simp
      | cons a l ih =>
        cases l with
        | nil => simpa using h.1
        | cons b l =>
          intro x hx
          rcases List.mem_cons.mp hx with rfl | hx
          · exact h.1.1
          · exact ih h.2 x hx
    have hw : ∃ w, UserIP.marshal none l = .ok w := by
      clear hl h
      induction l with
      | nil => exact ⟨_, rfl⟩
      | cons a l ih =>
        obtain ⟨w, hw⟩ := ih (fun a ha => hn a (by simp [ha]))
        exact ⟨escName a.name ++ b!" " ++ a.ip ++ dd ++ w, by simp [UserIP.marshal, hw, name_written (hn a (by simp))]⟩
    obtain ⟨w, hw⟩ := hw
    obtain ⟨ws, h5, rfl⟩ := userIP_marshal_ok hw
    have hws : ws ≠ [] := by rintro rfl; have := h5.length; simp at this; exact hl this
    obtain ⟨ps, h6, h7⟩ := (addresses_cut hl h5).mpr h
    exact ⟨_, hw, _, rfl, _, _, ps, trims hws, .there, h6, h7⟩

/-! ## Information about the hub -/

omit [HtmlEntities] in
theorem split_self {s : Bytes} {sep : Byte} {t : List Bytes} (h : split s sep = s :: t) : t = [] := by
  have : sep ∉ s := Verif.Adc.split_free s sep s (by rw [h]; simp)
  rw [split_of_not_mem this] at h
  simpa using h.symm

omit [HtmlEntities] in
theorem soft_back {s : Software} : ReadsSoft {} s.text s ↔ c!" " ∉ (if s.version = [] then s.name else s.version) := by
  unfold ReadsSoft Software.text
  by_cases h : s.version = []
  · simp only [h, if_true, and_true]
    constructor
    · rintro (h1 | h1)
      · have := congrArg List.length h1.1
        simp at this
      · exact absent_single.mp h1
    · intro h1
      exact .inr (absent_single.mpr h1)
  · simp only [h, if_false, and_false, or_false]
    rw [last_byte]
    simp

theorem hub_back {m : HubINFO} : Comes ord (.hubINFO m) ↔ NmdcBack.Hub m := by
  constructor
  · simp only [comes_iff, Msg.marshal, Msg.fresh, Reads, HubINFO.marshal, Res.bind_eq_ok, Res.pure_eq, Res.ok.injEq]
    rintro ⟨_, ⟨a, ha, b, hb, c, hc, d, hd, rfl⟩, _, ⟨⟩, fs, hp, f0, f1, f2, f3, f4, f5, f6, f7, f8, f9, f10⟩
    rw [parts_split, split_join_eq (by simp)] at hp
    have noD : ∀ {s w : Bytes}, Str.marshal none s = .ok w → split w c!"$" = [w] := by
      intro s w h
      exact split_of_not_mem (fun h' => (str_marshal_clean h _ h').1 rfl)
    have noI : ∀ k, split (itoa k) c!"$" = [itoa k] := by
      intro k
      refine split_of_not_mem (fun h => ?_)
      rcases itoa_bytes h with h | h
      · exact absurd h (by decide)
      · exact absurd h (by decide)
    simp only [List.flatMap_cons, List.flatMap_nil, noD ha, noD hb, noD hc, noD hd, noI, List.append_nil] at hp
    -- the host
    obtain ⟨h0, ht, hh⟩ : ∃ x t, split m.host c!"$" = x :: t := by
      cases h : split m.host c!"$" with
      | nil => exact absurd h (split_ne_nil _ _)
      | cons x t => exact ⟨x, t, rfl⟩
    rw [hh] at hp
    subst hp
    simp only [Field, List.cons_append, List.nil_append, List.getElem?_cons_zero, List.getElem?_cons_succ] at f0 f1
    subst f1
    have := split_self hh
    subst this
    obtain ⟨s0, st, hs⟩ : ∃ x t, split m.soft.text c!"$" = x :: t := by
      cases h : split m.soft.text c!"$" with
      | nil => exact absurd h (split_ne_nil _ _)
      | cons x t => exact ⟨x, t, rfl⟩
    rw [hs] at f2 f3 f4 f5 f6 f7 f8 f9 f10
    simp only [Field, List.cons_append, List.nil_append, List.getElem?_cons_zero, List.getElem?_cons_succ] at f2 f3 f4 f5 f6 f7
    have hs0 : c!"$" ∉ s0 := Verif.Adc.split_free m.soft.text c!"$" s0 (by rw [hs]; simp)
    have hsn : c!"$" ∉ m.soft.name ∧ c!"$" ∉ m.soft.version := by
      rcases f7 with h | ⟨-, h1, h2⟩
      · have := h.1
        subst this
        simp at hs0
        exact hs0
      · rw [h1, h2]; exact ⟨hs0, by simp⟩
    have hst : c!"$" ∉ m.soft.text := by
      unfold Software.text
      split
      · exact hsn.1
      · simp [hsn.1, hsn.2]
    rw [split_of_not_mem hst] at hs
    simp only [List.cons.injEq] at hs
    obtain ⟨rfl, rfl⟩ := hs
    obtain ⟨e0, et, he⟩ : ∃ x t, split m.encoding c!"$" = x :: t := by
      cases h : split m.encoding c!"$" with
      | nil => exact absurd h (split_ne_nil _ _)
      | cons x t => exact ⟨x, t, rfl⟩
    have he0 : c!"$" ∉ e0 := Verif.Adc.split_free m.encoding c!"$" e0 (by rw [he]; simp)
    rw [he] at f8 f9 f10
    simp only [Field, List.cons_append, List.nil_append, List.getElem?_cons_zero, List.getElem?_cons_succ] at f8 f9 f10
    have hen : c!"$" ∉ m.encoding := by
      rw [f10]
      split
      · exact he0
      · simp
    refine ⟨?_, ?_, ?_, soft_back.mp f7⟩
    · simp only [List.mem_cons, List.not_mem_nil, or_false, forall_eq_or_imp, forall_eq]
      exact ⟨(str_back ha).mp f0, (str_back hb).mp f2, (str_back hc).mp f8, (str_back hd).mp f9⟩
    · have rng : ∀ {d : Bytes} {k : Int}, ReadsInt d k → NmdcBack.Int64 k := fun ⟨_, _, _, h⟩ => h
      simp only [List.mem_cons, List.not_mem_nil, or_false, forall_eq_or_imp, forall_eq]
      exact ⟨rng f3, rng f4, rng f5, rng f6⟩
    · simp only [List.mem_cons, List.not_mem_nil, or_false, forall_eq_or_imp, forall_eq]
      exact ⟨Verif.Adc.split_free m.host c!"$" m.host (by rw [hh]; simp), hsn.1, hsn.2, hen⟩
  · rintro ⟨h1, h2, h3, h4⟩
    simp only [List.mem_cons, List.not_mem_nil, or_false, forall_eq_or_imp, forall_eq] at h1
    have hw : ∃ w, m.marshal none = .ok w := by
      exact ⟨_, by simp only [HubINFO.marshal, text_written h1.1, text_written h1.2.1, text_written h1.2.2.1, text_written h1.2.2.2, Res.ok_bind]; rfl⟩
    obtain ⟨w, hw⟩ := hw
    refine ⟨w, hw, ?_⟩
    have := NmdcSimple.hubInfo_roundtrip lossless_nil (by
        simp only [List.mem_cons, List.not_mem_nil, or_false, forall_eq_or_imp, forall_eq]
        exact ⟨textOk_back h1.1, textOk_back h1.2.1, textOk_back h1.2.2.1, textOk_back h1.2.2.2⟩) h2 h3
      (by
        by_cases h : m.soft.version = []
        · rw [h]; simp
        · rwa [if_neg h] at h4) (fun h => by rwa [if_pos h] at h4) hw
    simp only [Msg.fresh, Msg.unmarshal, this, Res.ok_bind, Res.pure_eq]

/-! ## Files -/

theorem direction_back {m : Direction} : Comes ord (.direction m) ↔ 1 ≤ m.number ∧ m.number ≤ 32767 := by
  constructor
  · simp only [comes_iff, Msg.marshal, Msg.fresh, Reads]
    rintro ⟨w, hw, _, ⟨⟩, a, b, -, -, -, h⟩
    exact h
  · intro h
    refine ⟨_, rfl, ?_⟩
    have := NmdcSimple.direction_roundtrip h rfl
    simp only [Msg.fresh, Msg.unmarshal, this, Res.ok_bind, Res.pure_eq]

/-- The four fields that are written are those that are read. -/
theorem range_back {ct ident a b d len rest x y : Bytes} {start : Nat} (ha : Str.marshal none ct = .ok a) (hb : Str.marshal none ident = .ok b)
    (hd : d = a ++ b!" " ++ b ++ b!" " ++ utoa start ++ b!" " ++ (x ++ y)) (hx : c!" " ∉ x) (hy : y = [] ∨ ∃ z, y = b!" " ++ z)
    (h : ReadsRange none d ct ident start len rest) : NmdcBack.Word ct ∧ NmdcBack.Word ident ∧ start < 2 ^ 64 ∧ len = x := by
  obtain ⟨p, q, c, r1, r2, r3, h1, h2, h3, h4, h5, h6, h7⟩ := h
  obtain ⟨rfl, rfl⟩ := text_first (by decide) ha h1 (y := b ++ b!" " ++ utoa start ++ b!" " ++ (x ++ y)) (by rw [hd]; simp) h4
  obtain ⟨rfl, rfl⟩ := text_first (by decide) hb h2 (y := utoa start ++ b!" " ++ (x ++ y)) (by simp) h5
  have hsp : c!" " ∉ utoa start := fun h => absurd (utoa_digit h) (by decide)
  obtain ⟨rfl, rfl⟩ := first_unique h3 (first_single.mpr ⟨rfl, hsp⟩)
  refine ⟨⟨(str_back ha).mp h4, ?_⟩, ⟨(str_back hb).mp h5, ?_⟩, (readsNat_utoa.mp h6).2, field_space h7 rfl hx hy⟩
  · obtain ⟨-, rfl⟩ := str_wire.mp ha
    have := (first_single.mp h1).2
    rwa [mem_escText (by decide) (by decide)] at this
  · obtain ⟨-, rfl⟩ := str_wire.mp hb
    have := (first_single.mp h2).2
    rwa [mem_escText (by decide) (by decide)] at this

omit [HtmlEntities] in
theorem word_free {s t : Bytes} (h : NmdcBack.Word s) (ht : Str.marshal none s = .ok t) : c!" " ∉ t := by
  obtain ⟨-, rfl⟩ := str_wire.mp ht
  rw [mem_escText (by decide) (by decide)]
  exact h.2

theorem snd_back {m : ADCSnd} : Comes ord (.adcSnd m) ↔ NmdcBack.Snd m := by
  constructor
  · simp only [comes_iff, Msg.marshal, Msg.fresh, Reads, ADCSnd.marshal, Res.bind_eq_ok, Res.pure_eq, Res.ok.injEq]
    rintro ⟨_, ⟨a, ha, b, hb, rfl⟩, _, ⟨⟩, len, rest, hr, hl, -⟩
    obtain ⟨h1, h2, h3, rfl⟩ := range_back ha hb (x := utoa m.length) (y := if m.compressed = true then b!" ZL1" else []) (by simp)
      (fun h => absurd (utoa_digit h) (by decide)) (by
        split
        · exact .inr ⟨b!"ZL1", rfl⟩
        · exact .inl rfl) hr
    exact ⟨h1, h2, h3, (readsNat_utoa.mp hl).2⟩
  · rintro ⟨h1, h2, h3, h4⟩
    have hw : m.marshal none = .ok (escText m.contentType ++ b!" " ++ escText m.identifier ++ b!" " ++ utoa m.start ++ b!" " ++ utoa m.length ++
        (if m.compressed then b!" ZL1" else [])) := by
      simp [ADCSnd.marshal, text_written h1.1, text_written h2.1]
    refine ⟨_, hw, ?_⟩
    have := NmdcSimple.adcSnd_roundtrip lossless_nil ⟨textOk_back h1.1, textOk_back h2.1⟩ (by
      simp only [List.mem_cons, List.not_mem_nil, or_false, forall_eq_or_imp, forall_eq]
      exact ⟨fun t => word_free h1, fun t => word_free h2⟩) h3 h4 hw
    simp only [Msg.fresh, Msg.unmarshal, this, Res.ok_bind, Res.pure_eq]

theorem get_back {m : ADCGet} : Comes ord (.adcGet m) ↔ NmdcBack.Get m := by
  constructor
  · simp only [comes_iff, Msg.marshal, Msg.fresh, Reads, ADCGet.marshal, Res.bind_eq_ok, Res.pure_eq, Res.ok.injEq]
    rintro ⟨_, ⟨a, ha, b, hb, rfl⟩, _, ⟨⟩, len, rest, fs, hr, hl, hp, hc, hdb, hd⟩
    obtain ⟨h1, h2, h3, rfl⟩ := range_back ha hb (x := itoa m.length)
      (y := (if m.compressed = true then b!" ZL1" else []) ++ ADCGet.downText m.downloaded) (by simp)
      (NmdcSimple.itoa_no_space _) (by
        cases m.compressed with
        | true => exact .inr ⟨b!"ZL1" ++ ADCGet.downText m.downloaded, by simp⟩
        | false =>
          cases m.downloaded with
          | none => exact .inl rfl
          | some n => exact .inr ⟨b!"DB" ++ utoa n, by simp [ADCGet.downText]⟩) hr
    have hlen : -1 ≤ m.length ∧ m.length < 2 ^ 63 := by
      rcases hl with ⟨-, h⟩ | ⟨-, n, h4, h5⟩
      · rw [h]; decide
      · have h6 := readsNat_bytes h4
        have h7 : 0 ≤ m.length := by
          cases hm : m.length with
          | ofNat k => exact Int.natCast_nonneg k
          | negSucc k =>
            rw [hm] at h6
            simp [itoa] at h6
        have h8 : n < 2 ^ 64 := by
          obtain ⟨t, -, -, -, h⟩ := h4; exact h
        unfold signed at h5
        split at h5 <;> omega
    refine ⟨h1, h2, h3, hlen.1, hlen.2, ?_⟩
    rintro n hn
    rcases hd with ⟨h, -⟩ | ⟨l, f, r, n', -, ⟨r', -, hr'⟩, h, -⟩
    · rw [h] at hn; cases hn
    · rw [h] at hn
      cases hn
      obtain ⟨t, -, -, -, h⟩ := hr'
      exact h
  · rintro ⟨h1, h2, h3, h4, h5, h6⟩
    have hw : m.marshal none = .ok (escText m.contentType ++ b!" " ++ escText m.identifier ++ b!" " ++ utoa m.start ++ b!" " ++ itoa m.length ++
        (if m.compressed then b!" ZL1" else []) ++ ADCGet.downText m.downloaded) := by
      simp [ADCGet.marshal, text_written h1.1, text_written h2.1]
    refine ⟨_, hw, ?_⟩
    have := NmdcSimple.adcGet_roundtrip lossless_nil ⟨textOk_back h1.1, textOk_back h2.1⟩ (by
      simp only [List.mem_cons, List.not_mem_nil, or_false, forall_eq_or_imp, forall_eq]
      exact ⟨fun t => word_free h1, fun t => word_free h2⟩) h3 ⟨h4, h5⟩ (fun n hn => h6 n hn) hw
    simp only [Msg.fresh, Msg.unmarshal, this, Res.ok_bind, Res.pure_eq]

/-! ## Searches -/

theorem search_back {m : Search} : Comes ord (.search m) ↔ NmdcBack.Searches m := by
  constructor
  · simp only [comes_iff, Msg.marshal, Msg.fresh, Reads, Search.marshal, Res.bind_eq_ok, Res.pure_eq, Res.ok.injEq]
    rintro ⟨_, ⟨who, hwho, what, hwhat, rfl⟩, _, ⟨⟩, w, q, r, f0, f1, f2, f3, f4, r1, r2, r3, hf, hw, g0, g1, g2, g3, hr, hm, hs, ht, hx⟩
    generalize hq : m.flags ++ b!"?" ++ utoa m.size ++ b!"?" ++ utoa (if m.dataType = 0 then 1 else m.dataType) ++ b!"?" ++ what = rest
    have hd : who ++ b!" " ++ m.flags ++ b!"?" ++ utoa m.size ++ b!"?" ++ utoa (if m.dataType = 0 then 1 else m.dataType) ++ b!"?" ++ what =
        who ++ b!" " ++ rest := by rw [← hq]; simp
    rw [hd] at hf
    have h1 : q = rest ∧ ((m.address = [] ∧ NmdcBack.Name m.user ∧ c!" " ∉ m.user) ∨
        (m.address ≠ [] ∧ c!" " ∉ m.address ∧ ¬ Begins b!"Hub:" m.address ∧ m.user = [])) := by
      unfold Search.who at hwho
      by_cases ha : m.address = []
      · simp only [ha, ne_eq, not_true_eq_false, if_false, Res.bind_eq_ok, Res.ok.injEq] at hwho
        obtain ⟨n, hn, rfl⟩ := hwho
        rcases hw with ⟨n', rfl, h2, -⟩ | ⟨-, h2, -⟩
        · rcases first_before hf rfl with ⟨h3, h4⟩ | ⟨z, h3⟩
          · have h3 := List.append_cancel_left h3
            subst h3
            refine ⟨h4, .inl ⟨ha, (nam_back hn).mp h2, ?_⟩⟩
            have := (first_single.mp hf).2
            obtain ⟨-, -, rfl⟩ := name_wire.mp hn
            intro hm
            exact this (by simp [mem_escName (c := c!" ") (by decide) (by decide), hm])
          · exfalso
            rw [List.append_assoc] at h3
            have h3 := List.append_cancel_left h3
            obtain ⟨-, -, rfl⟩ := name_wire.mp hn
            exact name_no_prefix (by decide) h3 h2
        · rw [ha] at h2
          subst h2
          have := congrArg List.head? hf.1
          simp at this
      · simp only [ha, ne_eq, not_false_eq_true, if_true, Res.ok.injEq] at hwho
        subst hwho
        rcases hw with ⟨n', -, -, h2⟩ | ⟨h2, h3, h4⟩
        · exact absurd h2 ha
        · subst h3
          obtain ⟨h5, h6⟩ := first_single.mp hf
          exact ⟨(List.append_cancel_left h5).symm, .inr ⟨ha, h6, h2, h4⟩⟩
    obtain ⟨rfl, h1⟩ := h1
    have nq : ∀ n, c!"?" ∉ utoa n := fun n h => absurd (utoa_digit h) (by decide)
    obtain ⟨c0, c1, hc, h0, h2⟩ : ∃ c0 c1 : Bytes, m.flags = c0 ++ b!"?" ++ c1 ∧ c!"?" ∉ c0 ∧ c!"?" ∉ c1 := by
      unfold Search.flags
      cases m.sizeRestricted <;> cases m.isMaxSize
      · exact ⟨b!"F", b!"T", by decide⟩
      · exact ⟨b!"F", b!"T", by decide⟩
      · exact ⟨b!"T", b!"F", by decide⟩
      · exact ⟨b!"T", b!"T", by decide⟩
    rw [hc] at hq
    have cut : ∀ {d x y a b : Bytes}, First b!"?" d a b → d = x ++ b!"?" ++ y → c!"?" ∉ x → a = x ∧ b = y :=
      fun h e hx => first_unique h (first_single.mpr ⟨e, hx⟩)
    obtain ⟨rfl, rfl⟩ := cut g0 (x := c0) (y := c1 ++ b!"?" ++ utoa m.size ++ b!"?" ++ utoa (if m.dataType = 0 then 1 else m.dataType) ++ b!"?" ++ what)
      (by rw [← hq]; simp) h0
    obtain ⟨rfl, rfl⟩ := cut g1 (x := c1) (y := utoa m.size ++ b!"?" ++ utoa (if m.dataType = 0 then 1 else m.dataType) ++ b!"?" ++ what) (by simp) h2
    obtain ⟨rfl, rfl⟩ := cut g2 (x := utoa m.size) (y := utoa (if m.dataType = 0 then 1 else m.dataType) ++ b!"?" ++ what) (by simp) (nq _)
    obtain ⟨rfl, rfl⟩ := cut g3 rfl (nq _)
    have ht := readsNat_utoa.mp ht
    have hty : m.dataType ≠ 0 ∧ m.dataType < 2 ^ 64 := by
      by_cases h : m.dataType = 0
      · simp [h] at ht
      · rw [if_neg h] at ht; exact ⟨h, ht.2⟩
    have hsz : m.size < 2 ^ 64 := by
      rcases hs with ⟨h, -⟩ | ⟨t, n, h, -⟩ | ⟨-, -, h, -⟩
      · have := (utoa_numeral m.size).1
        exact absurd h this
      · exact absurd (utoa_digit (n := m.size) (b := c!"-") (by rw [h]; simp)) (by decide)
      · exact (readsNat_utoa.mp h).2
    have hmax : m.sizeRestricted = false → m.isMaxSize = true := by
      intro h
      unfold Search.flags at hc
      simp only [h, Bool.false_eq_true, if_false] at hc
      rcases hm with ⟨-, h'⟩ | ⟨rfl, -⟩
      · exact h'
      · have := congrArg List.getLast? hc
        simp at this
    refine ⟨h1, hmax, hsz, hty.1, hty.2, ?_⟩
    unfold Search.what at hwhat
    rcases hx with ⟨h9, h10, b, h, x, -, -, h11, -⟩ | ⟨h9, h10, s, h11, h12⟩
    · exact .inl ⟨h9, h10, by rw [h11]; simp⟩
    · simp only [h9, if_false, Res.bind_eq_ok, Res.ok.injEq] at hwhat
      obtain ⟨e, he, rfl⟩ := hwhat
      obtain ⟨h0, rfl⟩ := str_wire.mp he
      obtain ⟨h13, h14, h15⟩ := pattern_back h11 h12
      exact .inr ⟨h9, h10, ⟨h0, h14, h15⟩, h13⟩
  · rintro ⟨h1, h2, h3, h4, h5, h6⟩
    have hw : ∃ w, m.marshal none = .ok w := by
      have a1 : ∃ x, m.who none = .ok x := by
        unfold Search.who
        rcases h1 with ⟨h, hn, -⟩ | ⟨h, -⟩
        · rw [if_neg (by simp [h]), name_written hn]; exact ⟨_, rfl⟩
        · exact ⟨_, by rw [if_pos h]⟩
      have a2 : ∃ x, m.what none = .ok x := by
        unfold Search.what
        rcases h6 with ⟨h, -, ht⟩ | ⟨h, -, ht, -⟩
        · rw [if_pos h]
          cases hh : m.tth with
          | none => exact absurd hh ht
          | some x => exact ⟨_, rfl⟩
        · rw [if_neg h, text_written ht]; exact ⟨_, rfl⟩
      obtain ⟨x, hx⟩ := a1
      obtain ⟨y, hy⟩ := a2
      exact ⟨_, by simp only [Search.marshal, hx, hy, Res.ok_bind]; rfl⟩
    obtain ⟨w, hw⟩ := hw
    refine ⟨w, hw, ?_⟩
    have := NmdcSearch.search_roundtrip lossless_nil asciiSwap_nil (m := m) (w := w)
      (by rcases h1 with ⟨h, -⟩ | ⟨-, h, -⟩
          · rw [h]; simp
          · exact h)
      (by rcases h1 with ⟨h, -⟩ | ⟨-, -, h, -⟩
          · rw [h]; decide
          · exact fun ⟨r, hr⟩ => h ⟨r, hr.symm⟩)
      (fun ha => by
        rcases h1 with ⟨-, h, h'⟩ | ⟨h, -⟩
        · refine ⟨nameOk_back h, fun n hn => ?_⟩
          obtain ⟨-, -, rfl⟩ := name_wire.mp hn
          rwa [mem_escName (by decide) (by decide)]
        · exact absurd ha h) h3 h5
      (fun h9 => by
        rcases h6 with ⟨h, -⟩ | ⟨-, -, h, -⟩
        · exact absurd h h9
        · exact textOk_back h) hw
    rw [NmdcSearch.search_fixpoint (by
        rcases h1 with ⟨h, -⟩ | ⟨-, -, -, h⟩
        · exact .inl h
        · exact .inr h) h2 h4 (fun h9 => by
        rcases h6 with ⟨-, h, -⟩ | ⟨h, -⟩
        · exact h
        · exact absurd h9 h) (fun h9 => by
        rcases h6 with ⟨h, -⟩ | ⟨-, h, -, h'⟩
        · exact absurd h h9
        · exact ⟨h, h'⟩)] at this
    simp only [Msg.fresh, Msg.unmarshal, this, Res.ok_bind, Res.pure_eq]

/-! ## User commands -/

omit [HtmlEntities] in
/-- No white space can be trimmed from the beginning of a text that begins with a digit, nor beyond a `$`. -/
theorem trims_front {d t : Bytes} (h : Trims d t) (hd : ∃ b ∈ d.head?, IsDigit b) :
    ∃ b : List Nat, (∀ r ∈ b, r ∈ white) ∧ d = t ++ b.flatMap utf8 := by
  obtain ⟨a, b, ha, hb, rfl, -⟩ := h
  refine ⟨b, hb, ?_⟩
  cases a with
  | nil => rfl
  | cons r a =>
    exfalso
    obtain ⟨x, hx, hd⟩ := hd
    have : ∀ r ∈ white, ∃ y ys, utf8 r = y :: ys ∧ ¬ IsDigit y := by
      have : ∀ r ∈ white, utf8 r ≠ [] ∧ ∀ y ∈ (utf8 r).head?, ¬ IsDigit y := by decide +kernel
      intro r hr
      obtain ⟨h1, h2⟩ := this r hr
      cases h : utf8 r with
      | nil => exact absurd h h1
      | cons y ys => exact ⟨y, ys, rfl, h2 y (by rw [h]; rfl)⟩
    obtain ⟨y, ys, h1, h2⟩ := this r (ha r (by simp))
    simp only [List.flatMap_cons, h1, List.cons_append, List.head?_cons, Option.mem_def, Option.some.injEq] at hx
    subst hx
    exact h2 hd

omit [HtmlEntities] in
theorem utoa_head (n : Nat) (s : Bytes) : ∃ b ∈ (utoa n ++ s).head?, IsDigit b := by
  have h1 := (utoa_numeral n).1
  cases h : utoa n with
  | nil => exact absurd h h1
  | cons x l => exact ⟨x, rfl, utoa_digit (n := n) (by rw [h]; simp)⟩

omit [HtmlEntities] in
theorem path_wire {l ws : List Bytes} : marshalPath none l = .ok ws ↔ (∀ s ∈ l, (0 : Byte) ∉ s) ∧ ws = l.map escText := by
  induction l generalizing ws with
  | nil => simp [marshalPath, eq_comm]
  | cons s l ih =>
    simp only [marshalPath, Res.bind_eq_ok, Res.pure_eq, Res.ok.injEq, str_wire, ih, List.mem_cons, forall_eq_or_imp, List.map_cons]
    constructor
    · rintro ⟨_, ⟨h1, rfl⟩, _, ⟨h2, rfl⟩, rfl⟩; exact ⟨⟨h1, h2⟩, rfl⟩
    · rintro ⟨⟨h1, h2⟩, rfl⟩; exact ⟨_, ⟨h1, rfl⟩, _, ⟨h2, rfl⟩, rfl⟩

omit [HtmlEntities] in
theorem whites_free {b : List Nat} (hb : ∀ r ∈ b, r ∈ white) : c!"$" ∉ b.flatMap utf8 := by
  intro h
  obtain ⟨r, hr, h⟩ := List.mem_flatMap.mp h
  have : ∀ r ∈ white, c!"$" ∉ utf8 r := by decide +kernel
  exact this r (hb r hr) h

omit [HtmlEntities] in
theorem trims_dollar {x c t : Bytes} {b : List Nat} (hb : ∀ r ∈ b, r ∈ white) (h : x ++ c!"$" :: c = t ++ b.flatMap utf8) :
    ∃ c', t = x ++ c!"$" :: c' ∧ c = c' ++ b.flatMap utf8 := by
  have hf := whites_free hb
  generalize b.flatMap utf8 = w at *
  rcases List.append_eq_append_iff.mp h with ⟨a, rfl, h2⟩ | ⟨a, rfl, h2⟩
  · cases a with
    | nil => exact absurd (by rw [← show _ = w from h2]; simp) hf
    | cons y a => simp only [List.cons_append, List.cons.injEq] at h2; obtain ⟨rfl, rfl⟩ := h2; exact ⟨a, rfl, rfl⟩
  · exact absurd (by rw [h2]; simp) hf

omit [HtmlEntities] in
theorem escText_dollar (s : Bytes) : c!"$" ∉ escText s := by
  intro h
  rw [escText_eq] at h
  rcases mem_escWith h with ⟨-, h⟩ | ⟨x, -, v, hv, hm⟩
  · exact absurd h (by decide)
  · exact text_esc_free (by decide) x v hv hm

theorem command_cut {s c : Bytes} {b : List Nat} (hb : ∀ r ∈ b, r ∈ white) (h : escText s = c ++ b.flatMap utf8) (hr : ReadsText none c s) : b = [] := by
  cases b with
  | nil => rfl
  | cons r b =>
    exfalso
    have : ∀ r ∈ white, utf8 r ≠ [] ∧ ∀ y ∈ (utf8 r).head?, escByte y = false := by decide +kernel
    obtain ⟨h1, h2⟩ := this r (hb r (by simp))
    cases hu : utf8 r with
    | nil => exact h1 hu
    | cons y ys =>
      rw [List.flatMap_cons, hu] at h
      exact text_no_prefix (h2 y (by rw [hu]; rfl)) h hr

/-- A text ends with white space as it does when it is escaped. -/
theorem escText_end {s : Bytes} {r : Nat} (hr : r ∈ white) : (∃ u, escText s = u ++ utf8 r) ↔ ∃ u, s = u ++ utf8 r := by
  constructor
  · rintro ⟨u, h⟩
    have : ∀ r ∈ white, utf8 r ≠ [] ∧ (∀ y ∈ (utf8 r).head?, escByte y = false) ∧ c!"&" ∉ utf8 r ∧ ∀ y ∈ utf8 r, escByte y = false := by decide +kernel
    obtain ⟨h1, h2, h3, h4⟩ := this r hr
    cases hu : utf8 r with
    | nil => exact absurd hu h1
    | cons y ys =>
      rw [hu] at h h3 h4
      rw [escText_eq] at h
      obtain ⟨s1, s2, rfl, -, h6⟩ := escWith_cut (text_esc_free (h4 y (by simp))) h
      refine ⟨s1, ?_⟩
      obtain ⟨z, hz⟩ := prefix_escWith goodString (k := ys) (fun hm => h3 (by simp [hm])) (s := s2) ⟨[], by simpa using h6⟩
      subst hz
      rw [escWith_append] at h6
      have hl := congrArg List.length h6
      have := escWith_length goodString ys
      have := escWith_length goodString z
      simp only [List.length_append] at *
      have : z = [] := List.length_eq_zero_iff.mp (by omega)
      subst this
      simp
  · rintro ⟨u, rfl⟩
    have : ∀ r ∈ white, escText (utf8 r) = utf8 r := by decide +kernel
    exact ⟨escText u, by rw [escText_append, this r hr]⟩

theorem userCommand_back {m : UserCommand} : Comes ord (.userCommand m) ↔ NmdcBack.Command m := by
  constructor
  · simp only [comes_iff, Msg.marshal, Msg.fresh, Reads]
    rintro ⟨d, hd, _, ⟨⟩, t, a, n, ht, ha, hn, hr⟩
    unfold UserCommand.marshal at hd
    have nsp : ∀ n, c!" " ∉ utoa n := fun n => utoa_no (by decide)
    have hdig : ∀ {n : Bytes} {k : Nat}, Digits (utoa k) n → n = utoa k := by
      rintro n k ⟨r, h1, h2, h3⟩
      cases r with
      | nil => simpa using h1.symm
      | cons y r => exact absurd (utoa_digit (n := k) (by rw [h1]; simp)) (h3 y rfl)
    have cut : ∀ {d x y a b : Bytes}, First b!" " d a b → d = x ++ b!" " ++ y → c!" " ∉ x → a = x ∧ b = y :=
      fun h e hx => first_unique h (first_single.mpr ⟨e, hx⟩)
    by_cases hp : m.path = []
    · by_cases hc : m.command = []
      · simp only [hp, hc, ne_eq, not_true_eq_false, if_false, if_true, Res.ok_bind, Res.pure_eq, Res.ok.injEq, List.append_nil] at hd
        subst hd
        obtain ⟨b, hb, he⟩ := trims_front ht (by rw [List.append_assoc]; exact utoa_head _ _)
        have hbn : b = [] := by
          rcases List.eq_nil_or_concat b with rfl | ⟨l, r, rfl⟩
          · rfl
          · exfalso
            have hw : ∀ r ∈ white, utf8 r ≠ [] ∧ ∀ y ∈ (utf8 r).getLast?, ¬ IsDigit y := by decide +kernel
            obtain ⟨w1, w2⟩ := hw r (hb r (by simp))
            rw [List.concat_eq_append, List.flatMap_append, List.flatMap_singleton] at he
            have h1 := (utoa_numeral (toU64 m.context)).1
            have h2 := congrArg List.getLast? he
            rw [← List.append_assoc, List.getLast?_append, List.getLast?_append (l' := utf8 r)] at h2
            cases h3 : (utoa (toU64 m.context)).getLast? with
            | none => exact h1 (List.getLast?_eq_none_iff.mp h3)
            | some y =>
              cases h4 : (utf8 r).getLast? with
              | none => exact w1 (List.getLast?_eq_none_iff.mp h4)
              | some z =>
                rw [h3, h4] at h2
                simp only [Option.some_or, Option.some.injEq] at h2
                exact w2 z h4 (by rw [← h2]; exact utoa_digit (List.mem_of_getLast? h3))
        subst hbn
        simp only [List.flatMap_nil, List.append_nil] at he
        subst he
        rcases hr with ⟨b, h1, h2, h3, -⟩ | ⟨r, b, v, p, c, k, q, ps, h1, h2, -⟩
        · obtain ⟨rfl, rfl⟩ := cut h1 rfl (nsp _)
          have := hdig h3
          subst this
          exact ⟨readsInt_utoa ha, readsInt_utoa hn, .inl ⟨hp, hc⟩⟩
        · exfalso
          obtain ⟨rfl, rfl⟩ := cut h1 rfl (nsp _)
          exact nsp _ (by rw [h2.1]; simp)
      · exfalso
        simp only [hp, hc, ne_eq, not_true_eq_false, if_false, Res.ok_bind, Res.pure_eq, Res.bind_eq_ok, Res.ok.injEq, List.append_nil] at hd
        obtain ⟨c, -, rfl⟩ := hd
        have e1 : utoa (toU64 m.typ) ++ b!" " ++ utoa (toU64 m.context) ++ b!" $" ++ c =
            (utoa (toU64 m.typ) ++ (b!" " ++ utoa (toU64 m.context) ++ b!" ")) ++ c!"$" :: c := by simp
        rw [e1] at ht
        obtain ⟨b, hb, he⟩ := trims_front ht (by rw [List.append_assoc]; exact utoa_head _ _)
        obtain ⟨c', rfl, -⟩ := trims_dollar hb he
        rcases hr with ⟨b, h1, h2, h3, h4⟩ | ⟨r, b, v, p, c, k, q, ps, h1, h2, -, h3, h4, -⟩
        · exact hc h4.2
        · obtain ⟨rfl, rfl⟩ := cut h1 (x := utoa (toU64 m.typ)) (y := utoa (toU64 m.context) ++ b!" " ++ c!"$" :: c') (by simp) (nsp _)
          obtain ⟨rfl, rfl⟩ := cut h2 rfl (nsp _)
          exact h4 (first_unique h3 (first_single (a := [])|>.mpr ⟨rfl, by simp⟩)).1
    · have hd' : ∃ ws, marshalPath none m.path = .ok ws ∧ ((m.command = [] ∧ d = utoa (toU64 m.typ) ++ b!" " ++ utoa (toU64 m.context) ++ (b!" " ++ join ws c!"\\")) ∨
          (m.command ≠ [] ∧ ∃ c, Str.marshal none m.command = .ok c ∧
            d = utoa (toU64 m.typ) ++ b!" " ++ utoa (toU64 m.context) ++ (b!" " ++ join ws c!"\\") ++ b!" $" ++ c)) := by
        simp only [hp, ne_eq, not_false_eq_true, if_true, Res.bind_eq_ok, Res.pure_eq] at hd
        obtain ⟨ws, hws, _, ⟨⟩, hd⟩ := hd
        refine ⟨ws, hws, ?_⟩
        by_cases hc : m.command = []
        · rw [if_pos hc] at hd; cases hd; exact .inl ⟨hc, rfl⟩
        · rw [if_neg hc] at hd
          simp only [Res.bind_eq_ok] at hd
          obtain ⟨c, h1, h2⟩ := hd
          cases h2
          exact .inr ⟨hc, c, h1, rfl⟩
      obtain ⟨ws, hws, hd⟩ := hd'
      obtain ⟨h0, rfl⟩ := path_wire.mp hws
      rw [escText_join] at hd
      have hJ := escText_dollar (join m.path c!"\\")
      rcases hd with ⟨hc, rfl⟩ | ⟨hc, c, hcc, rfl⟩
      · exfalso
        obtain ⟨b, hb, he⟩ := trims_front ht (by rw [List.append_assoc, List.append_assoc]; exact utoa_head _ _)
        rcases hr with ⟨b, h1, h2, h3, h4⟩ | ⟨r, b, v, p, c, k, q, ps, h1, h2, -, h3, h4, -⟩
        · exact hp h4.1
        · have : c!"$" ∈ t := by rw [h1.1, h2.1, h3.1]; simp
          have : c!"$" ∈ utoa (toU64 m.typ) ++ b!" " ++ utoa (toU64 m.context) ++ (b!" " ++ escText (join m.path c!"\\")) := by
            rw [he]; simp [this]
          have nd : ∀ n, c!"$" ∉ utoa n := fun n => utoa_no (by decide)
          simp only [List.mem_append, nd, hJ, false_or, or_false] at this
          exact absurd this (by decide)
      · have e1 : utoa (toU64 m.typ) ++ b!" " ++ utoa (toU64 m.context) ++ (b!" " ++ escText (join m.path c!"\\")) ++ b!" $" ++ c =
            (utoa (toU64 m.typ) ++ (b!" " ++ utoa (toU64 m.context) ++ b!" " ++ escText (join m.path c!"\\") ++ b!" ")) ++ c!"$" :: c := by simp
        rw [e1] at ht
        obtain ⟨b, hb, he⟩ := trims_front ht (by rw [List.append_assoc]; exact utoa_head _ _)
        obtain ⟨c', rfl, hcw⟩ := trims_dollar hb he
        have htr := ht
        obtain ⟨hc0, rfl⟩ := str_wire.mp hcc
        rcases hr with ⟨b, h1, h2, h3, h4⟩ | ⟨r, b', v, p, c, k, q, ps, h1, h2, h3, h4, h5, h6, h7, h8, h9, h10⟩
        · exact absurd h4.1 hp
        · obtain ⟨rfl, rfl⟩ := cut h1 (x := utoa (toU64 m.typ))
            (y := utoa (toU64 m.context) ++ b!" " ++ (escText (join m.path c!"\\") ++ b!" " ++ c!"$" :: c')) (by simp) (nsp _)
          obtain ⟨rfl, rfl⟩ := cut h2 rfl (nsp _)
          have := hdig h3
          subst this
          obtain ⟨rfl, rfl⟩ := first_unique h4 (first_single (a := escText (join m.path c!"\\") ++ b!" ") (b := c')|>.mpr ⟨by simp, by simp [hJ]⟩)
          have hbn := command_cut hb hcw h10
          subst hbn
          simp only [List.flatMap_nil, List.append_nil] at hcw
          subst hcw
          obtain ⟨h11, h12⟩ := path_back hp h6 h7 ((Verif.Adc.parts_iff _ _ _).mp h8) h9
          refine ⟨readsInt_utoa ha, readsInt_utoa hn, .inr ⟨hp, hc, fun s hs => ⟨⟨h0 s hs, (h12 s hs).2.2⟩, (h12 s hs).1, (h12 s hs).2.1⟩, ?_,
            (str_back hcc).mp h10, fun r hr u hu => ?_⟩⟩
          · intro s hs hl
            have h13 : (join m.path c!"\\").getLast? = some c!" " := by
              rw [join_getLast? (fun w hw => (h12 w hw).1), hs]; exact hl
            obtain ⟨z, hz⟩ := List.getLast?_eq_some_iff.mp h13
            subst h11
            rw [hz, escText_append] at h7
            exact h7 c!" " (by simp [show escText b!" " = b!" " from rfl]) rfl
          · obtain ⟨z, hz⟩ := (escText_end hr).mpr ⟨u, hu⟩
            obtain ⟨-, -, -, -, -, hlast⟩ := ht
            have := (hlast r hr (utoa (toU64 m.typ) ++ (b!" " ++ utoa (toU64 m.context) ++ b!" " ++ escText (join m.path c!"\\") ++ b!" ") ++ c!"$" :: z)).2
            exact this (by rw [hz]; simp)
  · rintro ⟨h1, h2, h3⟩
    have hl : ∀ r, isSpaceRune r = true ↔ r ∈ white := by
      intro r; rw [isSpaceRune_iff]
      have : spaceRunes = white := by decide
      rw [this]
    have hw : ∃ w, m.marshal none = .ok w := by
      unfold UserCommand.marshal
      rcases h3 with ⟨h, h'⟩ | ⟨h, h', h4, -, h5, -⟩
      · exact ⟨_, by simp [h, h']; rfl⟩
      · rw [if_pos h, path_wire.mpr ⟨fun s hs => (h4 s hs).1.1, rfl⟩]
        simp only [Res.ok_bind, Res.pure_eq, if_neg h', text_written h5]
        exact ⟨_, rfl⟩
    obtain ⟨w, hw⟩ := hw
    refine ⟨w, hw, ?_⟩
    have := NmdcChat.userCommand_roundtrip lossless_nil (m := m) (w := w) h1 h2
      (by rcases h3 with ⟨h, h'⟩ | ⟨h, h', -⟩
          · simp [h, h']
          · simp [h, h'])
      (fun s hs => by
        rcases h3 with ⟨h, -⟩ | ⟨-, -, h, -⟩
        · rw [h] at hs; cases hs
        · refine ⟨textOk_back (h s hs).1, fun t ht => ?_⟩
          obtain ⟨-, rfl⟩ := str_wire.mp ht
          refine ⟨fun h' => (h s hs).2.1 (escText_nil.mp h'), ?_⟩
          rw [mem_escText (by decide) (by decide)]
          exact (h s hs).2.2)
      (fun s hs t ht => by
        rcases h3 with ⟨h, -⟩ | ⟨-, -, -, h, -⟩
        · rw [h] at hs; cases hs
        · obtain ⟨-, rfl⟩ := str_wire.mp ht
          intro h'
          obtain ⟨u, hu⟩ := List.getLast?_eq_some_iff.mp h'
          obtain ⟨v, hv⟩ := (escText_end (r := 32) (by decide)).mp ⟨u, hu⟩
          exact h s hs (by rw [hv]; simp [utf8]))
      (by
        rcases h3 with ⟨-, h⟩ | ⟨-, -, -, -, h, h'⟩
        · rw [h]
          refine ⟨textOk_back ⟨by simp, ⟨[], by simp, rfl⟩, ?_⟩, fun t ht r hr => ?_⟩
          · have : ∀ e ∈ legacyCodes, e.1 ≠ [] := by decide
            intro e he a b hab
            have hab := (List.append_eq_nil_iff.mp (List.append_eq_nil_iff.mp hab.symm).1).2
            exact this e he hab
          · cases ht
            have : ∀ r ∈ white, ¬ utf8 r <:+ [] := by decide +kernel
            exact this r ((hl r).mp hr)
        · refine ⟨textOk_back h, fun t ht r hr => ?_⟩
          obtain ⟨-, rfl⟩ := str_wire.mp ht
          rintro ⟨u, hu⟩
          obtain ⟨v, hv⟩ := (escText_end ((hl r).mp hr)).mp ⟨u, hu.symm⟩
          exact h' r ((hl r).mp hr) v hv) hw
    simp only [Msg.fresh, Msg.unmarshal, this, Res.ok_bind, Res.pure_eq]

/-! ## Search results -/

omit [HtmlEntities] in
theorem strAll_wire {l ws : List Bytes} : strAll none l = .ok ws ↔ (∀ s ∈ l, (0 : Byte) ∉ s) ∧ ws = l.map escText := by
  induction l generalizing ws with
  | nil => simp [strAll, eq_comm]
  | cons s l ih =>
    simp only [strAll, Res.bind_eq_ok, Res.ok.injEq, str_wire, ih, List.mem_cons, forall_eq_or_imp, List.map_cons]
    constructor
    · rintro ⟨_, ⟨h1, rfl⟩, _, ⟨h2, rfl⟩, rfl⟩; exact ⟨⟨h1, h2⟩, rfl⟩
    · rintro ⟨⟨h1, h2⟩, rfl⟩; exact ⟨_, ⟨h1, rfl⟩, _, ⟨h2, rfl⟩, rfl⟩

omit [HtmlEntities] in
theorem readsInt_itoa {k : Int} : ReadsInt (itoa k) k ↔ NmdcBack.Int64 k := by
  constructor
  · rintro ⟨_, _, _, h⟩; exact h
  · rintro ⟨h1, h2⟩; exact int_reads.mp (NmdcNumbers.int_roundtrip h1 h2)

omit [HtmlEntities] in
theorem mem_join {l : List Bytes} {c x : Byte} (hx : x ≠ c) : x ∈ join l c ↔ ∃ s ∈ l, x ∈ s := by
  induction l with
  | nil => simp [join]
  | cons p l ih =>
    cases l with
    | nil => simp [join]
    | cons q l =>
      rw [join_cons2, List.mem_append, List.mem_cons, ih]
      simp [hx]

theorem sr_source {m : SR} {name r4 rest : Bytes} (hn : m.source none = .ok name)
    (h : (∃ h x, h.length = 39 ∧ name ++ b!" (" ++ rest = b!"TTH:" ++ h ++ b!" (" ++ r4 ∧ m.tth = some x ∧ Base32.Names h x.bytes ∧ m.hubName = []) ∨
      (¬ Begins b!"TTH:" (name ++ b!" (" ++ rest) ∧ m.tth = none ∧ ∃ h, First b!" (" (name ++ b!" (" ++ rest) h r4 ∧ ReadsText none h m.hubName)) :
    r4 = rest ∧ (m.tth ≠ none → m.hubName = []) ∧
      (m.tth = none → NmdcBack.Text m.hubName ∧ Absent b!" (" m.hubName ∧ ¬ Begins b!"TTH:" m.hubName) := by
  unfold SR.source at hn
  rcases h with ⟨h, x, h1, h2, h3, -, h5⟩ | ⟨h1, h2, h, h3, h4⟩
  · simp only [h3, Res.ok.injEq] at hn
    subst hn
    have := x.base32_length
    rw [List.append_assoc, List.append_assoc, List.append_assoc, List.append_assoc] at h2
    have h2 := List.append_cancel_left h2
    obtain ⟨-, h2⟩ := List.append_inj h2 (by omega)
    exact ⟨(List.append_cancel_left h2).symm, fun _ => h5, fun h => by rw [h3] at h; cases h⟩
  · simp only [h2] at hn
    obtain ⟨rfl, rfl⟩ := text_first (by decide) hn h3 rfl h4
    refine ⟨rfl, fun h => absurd h2 h, fun _ => ⟨(str_back hn).mp h4, ?_, ?_⟩⟩
    · intro a b hab
      obtain ⟨-, rfl⟩ := str_wire.mp hn
      have := h3.2 (escText a) (escText b ++ b!" (" ++ r4) (by
        rw [hab, escText_append, escText_append, show escText b!" (" = b!" (" from rfl]; simp)
      rw [hab, escText_append, escText_append, show escText b!" (" = b!" (" from rfl] at this
      simp at this
      omega
    · rintro ⟨r, hr⟩
      obtain ⟨-, rfl⟩ := str_wire.mp hn
      apply h1
      exact ⟨escText r ++ b!" (" ++ r4, by rw [hr, escText_append, show escText b!"TTH:" = b!"TTH:" from rfl]; simp⟩

theorem sr_target {m : SR} {to addr r5 : Bytes} (hto : m.target none = .ok to) (h1 : First b!")" (m.hubAddress ++ b!")" ++ to) addr r5)
    (h2 : m.hubAddress = addr) (h3 : (r5 = [] ∧ m.dst = []) ∨ ∃ n, r5 = b!"\x05" ++ n ∧ n ≠ [] ∧ ReadsName none n m.dst) :
    c!")" ∉ m.hubAddress ∧ (m.dst ≠ [] → NmdcBack.Name m.dst) := by
  subst h2
  obtain ⟨h4, h5⟩ := first_single.mp h1
  have h4 := List.append_cancel_left h4
  subst h4
  refine ⟨h5, fun hd => ?_⟩
  unfold SR.target at hto
  rw [if_neg hd] at hto
  simp only [Res.bind_eq_ok, Res.ok.injEq] at hto
  obtain ⟨n, hn, rfl⟩ := hto
  rcases h3 with ⟨h3, -⟩ | ⟨n', h3, -, h6⟩
  · cases h3
  · cases h3
    exact (nam_back hn).mp h6

omit [HtmlEntities] in
theorem prefix_dir {p x y : Bytes} (h : DirSlots p x y) : ∃ r, p = x ++ r := by
  obtain ⟨b, rfl, -⟩ := h
  exact ⟨[b] ++ y, by simp⟩

omit [HtmlEntities] in
theorem run_unique {a b x y : Bytes} {c d : Byte} (h : a ++ [c] ++ x = b ++ [d] ++ y) (hc : ¬ SlotChar c) (hd : ¬ SlotChar d)
    (hx : ∀ z ∈ x, SlotChar z) (hy : ∀ z ∈ y, SlotChar z) : a = b ∧ x = y := by
  rw [List.append_assoc, List.append_assoc] at h
  rcases List.append_eq_append_iff.mp h with ⟨u, rfl, h2⟩ | ⟨u, rfl, h2⟩
  · cases u with
    | nil => simp at h2; simp [h2]
    | cons z u =>
      exfalso
      simp only [List.cons_append, List.nil_append, List.cons.injEq] at h2
      exact hd (hx d (by rw [h2.2]; simp))
  · cases u with
    | nil => simp at h2; simp [h2]
    | cons z u =>
      exfalso
      simp only [List.cons_append, List.nil_append, List.cons.injEq] at h2
      exact hc (hy c (by rw [h2.2]; simp))

omit [HtmlEntities] in
theorem slots_nonneg {slots f t : Bytes} {a b : Int} (hs : ∀ z ∈ slots, SlotChar z) (h : First b!"/" slots f t) (ha : ReadsInt f a) (hb : ReadsInt t b) :
    (0 ≤ a ∧ a < 2 ^ 63) ∧ (0 ≤ b ∧ b < 2 ^ 63) := by
  have main : ∀ {d : Bytes} {k : Int}, (∀ z ∈ d, SlotChar z) → ReadsInt d k → 0 ≤ k ∧ k < 2 ^ 63 := by
    rintro d k hd ⟨t, ⟨i, j, rfl⟩, ht, -, hlt⟩
    refine ⟨?_, hlt⟩
    cases ht with
    | plain _ => omega
    | plus _ => omega
    | minus _ =>
      exfalso
      have := hd c!"-" (by simp)
      revert this
      unfold SlotChar
      decide
  have e := h.1
  exact ⟨main (fun z hz => hs z (by rw [e]; simp [hz])) ha, main (fun z hz => hs z (by rw [e]; simp [hz])) hb⟩

theorem sr_path {m : SR} {p path slots r2 r3 rest f t : Bytes} (hne : m.path ≠ []) (h0 : ∀ s ∈ m.path, (0 : Byte) ∉ s)
    (hf : First b!"\x05" (escText (join m.path c!"\\") ++ (if m.isDir then [] else (5 : Byte) :: utoa m.size) ++ b!" " ++ m.slots ++ [5] ++ rest) p r2)
    (h1 : (DirSlots p path slots ∧ r3 = r2 ∧ m.isDir = true ∧ m.size = 0) ∨
      ((∀ x y, ¬ DirSlots p x y) ∧ path = p ∧ m.isDir = false ∧ ∃ ss n, First b!"\x05" r2 ss r3 ∧ First b!" " ss n slots ∧ ReadsNat n m.size))
    (h2 : ∃ s, ReadsText none path s) (h3 : AdcWire.Parts c!"\\" path m.path) (h4 : First b!"/" slots f t) (h5 : ReadsInt f m.freeSlots)
    (h6 : ReadsInt t m.totalSlots) :
    r3 = rest ∧ NmdcBack.Path m.path ∧
    (m.isDir = true → m.size = 0 ∧ (0 ≤ m.freeSlots ∧ m.freeSlots < 2 ^ 63) ∧ (0 ≤ m.totalSlots ∧ m.totalSlots < 2 ^ 63)) ∧
    (m.isDir = false → m.size < 2 ^ 64 ∧ NmdcBack.Int64 m.freeSlots ∧ NmdcBack.Int64 m.totalSlots ∧ ∀ x y, ¬ DirSlots (b!"\\".intercalate m.path) x y) := by
  have hpath : path = join m.path c!"\\" := by rw [← (Verif.Adc.parts_iff _ _ _).mp h3, Verif.Adc.join_split]
  have hpre : ∃ r, p = path ++ r := by
    rcases h1 with ⟨h, -⟩ | ⟨-, h, -⟩
    · exact prefix_dir h
    · exact ⟨[], by simp [h]⟩
  obtain ⟨u, hu⟩ := hpre
  have h5p := (first_single.mp hf).2
  have no5 : (5 : Byte) ∉ join m.path c!"\\" := by
    rw [← hpath]; intro h; exact h5p (by rw [hu]; simp [h])
  have no5' : (5 : Byte) ∉ escText (join m.path c!"\\") := by rwa [mem_escText (by decide) (by decide)]
  have nou : ∀ k, (5 : Byte) ∉ utoa k := fun k => utoa_no (by decide)
  have noi : ∀ k, (5 : Byte) ∉ itoa k := fun k h => by
    rcases itoa_bytes h with h | h
    · exact absurd h (by decide)
    · exact absurd h (by decide)
  have nos : (5 : Byte) ∉ m.slots := by
    unfold SR.slots
    simp only [List.mem_append, noi, false_or, or_false]
    decide
  have hsame : path = escText (join m.path c!"\\") → NmdcBack.Path m.path := by
    intro he
    refine ⟨hne, ?_, ?_⟩
    · have he' := escText_same.mp (he.symm.trans hpath)
      intro s hs b hb hm
      have hsep := ((Verif.Adc.parts_iff _ _ _).mp h3)
      rw [hpath] at hsep
      have hback := (split_back.mp hsep).2 s hs
      have hn : ∀ c, c ∈ b!"\x00\x05\\&$|" → c = 0 ∨ c = 5 ∨ c = c!"\\" ∨ c ∈ b!"&$|" := by decide
      rcases hn b hm with rfl | rfl | rfl | h
      · exact h0 s hs hb
      · exact no5 ((mem_join (by decide)).mpr ⟨s, hs, hb⟩)
      · exact hback hb
      · by_cases hb' : b = c!"\\"
        · subst hb'; exact hback hb
        · exact he' b ((mem_join hb').mpr ⟨s, hs, hb⟩) h
    · rw [← Verif.Adc.join_eq]
      rw [he] at h2
      refine (some_text ?_).mp h2
      intro h
      obtain ⟨s, hs, h⟩ := (mem_join (by decide)).mp h
      exact h0 s hs h
  have cut5 : ∀ {d x y a b : Bytes}, First b!"\x05" d a b → d = x ++ b!"\x05" ++ y → (5 : Byte) ∉ x → a = x ∧ b = y :=
    fun h e hx => first_unique h (first_single.mpr ⟨e, hx⟩)
  rcases h1 with ⟨hd, rfl, hi, hz⟩ | ⟨hd, rfl, hi, ss, n, hs1, hs2, hs3⟩
  · rw [hi] at hf
    obtain ⟨rfl, rfl⟩ := cut5 hf (x := escText (join m.path c!"\\") ++ b!" " ++ m.slots) (y := rest) (by simp) (by
      simp only [List.mem_append, no5', nos, or_false, false_or]; decide)
    obtain ⟨x, hx, hx1, hx2, hx3⟩ := hd
    obtain ⟨hf1, hf2⟩ := slots_nonneg hx2 h4 h5 h6
    have hslots : ∀ z ∈ m.slots, SlotChar z := by
      intro z hz
      unfold SR.slots at hz
      obtain ⟨i, hi⟩ := Int.eq_ofNat_of_zero_le hf1.1
      obtain ⟨j, hj⟩ := Int.eq_ofNat_of_zero_le hf2.1
      rw [hi, hj] at hz
      simp only [itoa_natCast, List.mem_append, List.mem_cons, List.not_mem_nil, or_false] at hz
      rcases hz with (hz | hz) | hz
      · exact .inl (utoa_digit hz)
      · exact .inr hz
      · exact .inl (utoa_digit hz)
    obtain ⟨e1, e2⟩ := run_unique hx (by unfold SlotChar; decide) hx1 hslots hx2
    exact ⟨rfl, hsame e1.symm, fun _ => ⟨hz, hf1, hf2⟩, fun h => by rw [hi] at h; cases h⟩
  · rw [hi] at hf
    obtain ⟨rfl, rfl⟩ := cut5 hf (x := escText (join m.path c!"\\")) (y := utoa m.size ++ b!" " ++ m.slots ++ [5] ++ rest) (by simp) no5'
    obtain ⟨rfl, rfl⟩ := cut5 hs1 (x := utoa m.size ++ b!" " ++ m.slots) (y := rest) (by simp) (by
      simp only [List.mem_append, nou, nos, or_false, false_or]; decide)
    obtain ⟨rfl, rfl⟩ := first_unique hs2 (first_single.mpr ⟨rfl, fun h => absurd (utoa_digit h) (by decide)⟩)
    have ns : c!"/" ∉ itoa m.freeSlots := fun h => by
      rcases itoa_bytes h with h | h
      · exact absurd h (by decide)
      · exact absurd h (by decide)
    obtain ⟨rfl, rfl⟩ := first_unique h4 (first_single.mpr ⟨rfl, ns⟩)
    refine ⟨rfl, hsame rfl, fun h => absurd (hi.symm.trans h) (by decide), fun _ => ⟨(readsNat_utoa.mp hs3).2, readsInt_itoa.mp h5, readsInt_itoa.mp h6, ?_⟩⟩
    rw [← Verif.Adc.join_eq, ← hpath]
    exact hd

omit [HtmlEntities] in
theorem not_dir {p : Bytes} (h : ∀ x y, ¬ DirSlots p x y) :
    (∀ a b, p = a ++ c!"/" :: b → ∃ c ∈ b, ¬ (c = c!"/" ∨ IsDigit c)) ∨ ∀ c ∈ p, c = c!"/" ∨ IsDigit c := by
  by_cases hall : ∀ c ∈ p, c = c!"/" ∨ IsDigit c
  · exact .inr hall
  left
  rintro a b rfl
  apply Classical.byContradiction
  intro hn
  have hb : ∀ c ∈ b, SlotChar c := by
    intro c hc
    rcases Classical.em (c = c!"/" ∨ IsDigit c) with h | h
    · exact h.symm
    · exact absurd ⟨c, hc, h⟩ hn
  have ha : ∃ x, x ∈ a ∧ ¬ SlotChar x := by
    apply Classical.byContradiction
    intro hn'
    apply hall
    intro c hc
    rcases List.mem_append.mp hc with hc | hc
    · apply Classical.byContradiction
      intro hc'
      exact hn' ⟨c, hc, fun h => hc' h.symm⟩
    · rcases List.mem_cons.mp hc with rfl | hc
      · exact .inl rfl
      · exact (hb c hc).symm
  have last : ∀ a : Bytes, (∃ x, x ∈ a ∧ ¬ SlotChar x) → ∃ u x v, a = u ++ [x] ++ v ∧ ¬ SlotChar x ∧ ∀ z ∈ v, SlotChar z := by
    intro a
    induction a with
    | nil => rintro ⟨x, hx, -⟩; cases hx
    | cons y a ih =>
      intro hx
      by_cases h' : ∃ x, x ∈ a ∧ ¬ SlotChar x
      · obtain ⟨u, x, v, rfl, h1, h2⟩ := ih h'
        exact ⟨y :: u, x, v, by simp, h1, h2⟩
      · refine ⟨[], y, a, rfl, ?_, fun z hz => Classical.byContradiction fun hz' => h' ⟨z, hz, hz'⟩⟩
        obtain ⟨x, hx, hx'⟩ := hx
        rcases List.mem_cons.mp hx with rfl | hx
        · exact hx'
        · exact absurd ⟨x, hx, hx'⟩ h'
  obtain ⟨u, x, v, rfl, h1, h2⟩ := last a ha
  refine h u (v ++ c!"/" :: b) ⟨x, by simp, h1, ?_, by simp⟩
  intro z hz
  rcases List.mem_append.mp hz with hz | hz
  · exact h2 z hz
  · rcases List.mem_cons.mp hz with rfl | hz
    · exact .inr rfl
    · exact hb z hz

theorem sr_back {m : SR} : Comes ord (.sr m) ↔ NmdcBack.Result m := by
  constructor
  · simp only [comes_iff, Msg.marshal, Msg.fresh, Reads]
    rintro ⟨d, hd, _, ⟨⟩, a, r1, p, r2, path, slots, r3, f, t, r4, addr, r5, g1, g2, g3, g4, g5, g6, g7, g8, g9, g10, g11, g12, g13⟩
    unfold SR.marshal at hd
    obtain ⟨src, hsrc, hd⟩ := Res.bind_eq_ok.mp hd
    split at hd
    · cases hd
    rename_i hne
    simp only [Res.bind_eq_ok, Res.pure_eq, Res.ok.injEq] at hd
    obtain ⟨ws, hws, name, hname, to, hto, rfl⟩ := hd
    obtain ⟨h0, rfl⟩ := strAll_wire.mp hws
    rw [escText_join] at g1
    obtain ⟨rfl, rfl⟩ := name_first (by decide) hsrc g1 (y := escText (join m.path c!"\\") ++ (if m.isDir then [] else (5 : Byte) :: utoa m.size) ++
      b!" " ++ m.slots ++ [5] ++ (name ++ b!" (" ++ (m.hubAddress ++ b!")" ++ to))) (by simp) g2
    obtain ⟨rfl, hp, hdir, hfile⟩ := sr_path hne h0 g3 g4 g5 g6 g7 g8 g9
    obtain ⟨rfl, ht1, ht2⟩ := sr_source hname g10
    obtain ⟨ha, hdst⟩ := sr_target hto g11 g12 g13
    refine ⟨(nam_back hsrc).mp g2, ?_, hp, hdir, hfile, ht1, ht2, ha, hdst⟩
    have := (first_single.mp g1).2
    obtain ⟨-, -, rfl⟩ := name_wire.mp hsrc
    rwa [mem_escName (by decide) (by decide)] at this
  · rintro ⟨h1, h2, ⟨hne, h3, h4⟩, h5, h6, h7, h8, h9, h10⟩
    have hesc : ∀ s ∈ m.path, escText s = s := fun s hs => escText_same.mpr fun b hb hm => h3 s hs b hb (by
      have : ∀ b : Byte, b ∈ b!"&$|" → b ∈ b!"\x00\x05\\&$|" := by decide
      exact this b hm)
    have hp0 : ∀ s ∈ m.path, (0 : Byte) ∉ s := fun s hs h => h3 s hs 0 h (by decide)
    have hp : ∀ s ∈ m.path, Str.marshal none s = .ok s := fun s hs => str_wire.mpr ⟨hp0 s hs, (hesc s hs).symm⟩
    have hw : ∃ w, m.marshal none = .ok w := by
      have a1 : ∃ x, m.source none = .ok x := by
        unfold SR.source
        cases ht : m.tth with
        | none => exact ⟨_, text_written (h8 ht).1⟩
        | some x => exact ⟨_, rfl⟩
      have a2 : ∃ x, m.target none = .ok x := by
        unfold SR.target
        by_cases hd : m.dst = []
        · exact ⟨_, by rw [if_pos hd]⟩
        · exact ⟨_, by rw [if_neg hd, name_written (h10 hd)]; rfl⟩
      obtain ⟨x, hx⟩ := a1
      obtain ⟨y, hy⟩ := a2
      exact ⟨_, by simp only [SR.marshal, name_written h1, if_neg hne, strAll_wire.mpr ⟨hp0, rfl⟩, hx, hy, Res.ok_bind]; rfl⟩
    obtain ⟨w, hw⟩ := hw
    refine ⟨w, hw, ?_⟩
    rw [← Verif.Adc.join_eq] at h4
    have hj0 : (0 : Byte) ∉ join m.path c!"\\" := fun h => by
      obtain ⟨s, hs, h⟩ := (mem_join (by decide)).mp h
      exact hp0 s hs h
    have hint : ∀ k : Int, 0 ≤ k ∧ k < 2 ^ 63 → -(2 ^ 63 : Int) ≤ k ∧ k < 2 ^ 63 := fun k hk => ⟨by omega, hk.2⟩
    have := NmdcSearch.sr_roundtrip lossless_nil (by rfl) (m := m) (w := w)
      ⟨nameOk_back h1, fun n hn => by
        obtain ⟨-, -, rfl⟩ := name_wire.mp hn
        rwa [mem_escName (by decide) (by decide)]⟩
      (fun s hs => ⟨hp s hs, fun h => h3 s hs _ h (by decide), fun h => h3 s hs _ h (by decide)⟩)
      (by
        obtain ⟨t, ht⟩ := (some_text hj0).mpr h4
        refine ⟨t, str_reads.mpr ?_⟩
        have : escText (join m.path c!"\\") = join m.path c!"\\" := by
          rw [← escText_join]; congr 1
          exact (List.map_congr_left hesc).trans (List.map_id' _)
        rwa [this] at ht)
      (fun h => ⟨(h5 h).1, (h5 h).2.1.1, (h5 h).2.2.1⟩)
      (fun h => not_dir (by have := (h6 h).2.2.2; rwa [← Verif.Adc.join_eq] at this))
      (by cases h : m.isDir with
          | true => rw [(h5 h).1]; decide
          | false => exact (h6 h).1)
      (by intro k hk
          simp only [List.mem_cons, List.not_mem_nil, or_false] at hk
          cases h : m.isDir with
          | true => rcases hk with rfl | rfl
                    · exact hint _ (h5 h).2.1
                    · exact hint _ (h5 h).2.2
          | false => rcases hk with rfl | rfl
                     · exact (h6 h).2.1
                     · exact (h6 h).2.2.1)
      (fun ht => by
        obtain ⟨k1, k2, k3⟩ := h8 ht
        refine ⟨textOk_back k1, fun n hn => ?_⟩
        obtain ⟨-, rfl⟩ := str_wire.mp hn
        rw [escText_eq]
        refine ⟨?_, ?_⟩
        · rintro ⟨a, b, hab⟩
          obtain ⟨a', b', h⟩ := pattern_escWith goodString (text_esc_free (c := c!" ") (by decide)) (k := b!"(") (by decide) hab.symm
          exact k2 a' b' h
        · intro hpre
          have : b!"TTH:" <+: escWith escapeCharString m.hubName := by
            obtain ⟨r, hr⟩ := hpre
            rcases List.append_eq_append_iff.mp hr with ⟨u, h, -⟩ | ⟨u, h, hu⟩
            · exact ⟨u, h.symm⟩
            · cases u with
              | nil => exact ⟨[], by rw [List.append_nil] at h; simp [h]⟩
              | cons x u =>
                exfalso
                simp only [List.cons_append, List.cons.injEq] at hu
                obtain ⟨rfl, -⟩ := hu
                have : c!" " ∈ b!"TTH:" := by rw [h]; simp
                exact absurd this (by decide)
          obtain ⟨r, hr⟩ := prefix_escWith goodString (by decide) this
          exact k3 ⟨r, hr.symm⟩)
      h7 h9 (fun h => nameOk_back (h10 h)) hw
    simp only [Msg.fresh, Msg.unmarshal, this, Res.ok_bind, Res.pure_eq]

end

end Verif.Props.NmdcExact
