import Verif.Props.NmdcRelayLemmas
import Verif.Props.NmdcLines

/-!
# C112: NMDC messages that are passed on

A hub decodes the messages of one client and encodes them for the others, which decode them again. Whether the others see what the
hub saw is decided here for every payload the hub accepts.
-/

namespace Verif.Props.NmdcRelay

open Verif.Go Verif.Spec Verif.Nmdc Verif.Tiger Verif.Spec.NmdcWire Verif.Spec.NmdcReads Verif.Spec.NmdcBack Verif.Spec.NmdcRelay

section
variable [HtmlEntities]

theorem hop_iff {ord : StrMap → StrMap} {m m' : Msg} :
    hop ord m = .ok m' ↔ ∃ w, m.marshal none ord = .ok w ∧ m.fresh.unmarshal none w = .ok m' := by
  unfold hop
  rw [Res.bind_eq_ok]

/-- Every payload that is accepted is seen by those it is passed on to as the hub saw it exactly if the value is one that comes
back from the wire. -/
theorem any_payload {ord : StrMap → StrMap} (hord : ∀ s, (ord s).Perm s) {old m : Msg} {d : Bytes} (hold : old.fresh = old)
    (h : old.unmarshal none d = .ok m) : (∃ m', hop ord m = .ok m' ∧ Same m m') ↔ Back m := by
  have hm := reads_mapped hold (NmdcReads.message_reads.mp h)
  rw [← NmdcBack.message_back hord hm]
  constructor
  · rintro ⟨m', h1, h2⟩
    obtain ⟨w, h3, h4⟩ := hop_iff.mp h1
    exact ⟨w, m', h3, h4, h2⟩
  · rintro ⟨w, m', h3, h4, h2⟩
    exact ⟨m', hop_iff.mpr ⟨w, h3, h4⟩, h2⟩

/-- For a payload without escapes these are all values but the listed exceptions. -/
theorem passed_on {ord : StrMap → StrMap} (hord : ∀ s, (ord s).Perm s) {old m : Msg} {d : Bytes} (hold : old.fresh = old) (hc : Clear d)
    (h : old.unmarshal none d = .ok m) : (∃ m', hop ord m = .ok m' ∧ Same m m') ↔ Passes m ∧ Short m := by
  rw [any_payload hord hold h]
  exact (reads_passes hold hc (NmdcReads.message_reads.mp h)).2

/-- What passes one program passes any number of them, whatever order of maps each of them has. -/
theorem any_hops {ords : List (StrMap → StrMap)} (hords : ∀ ord ∈ ords, ∀ s, (ord s).Perm s) {old m : Msg} {d : Bytes} (hold : old.fresh = old)
    (hc : Clear d) (h : old.unmarshal none d = .ok m) (hp : Passes m) (hs : Short m) : ∃ m', hops ords m = .ok m' ∧ Same m m' := by
  have hr := NmdcReads.message_reads.mp h
  have hb := (reads_passes hold hc hr).2.mpr ⟨hp, hs⟩
  have hm := reads_mapped hold hr
  clear hr h hp hs hc hold
  induction ords generalizing m with
  | nil => exact ⟨m, rfl, .refl m⟩
  | cons ord ords ih =>
    obtain ⟨w, m1, h1, h2, h3⟩ := (NmdcBack.message_back (hords ord (by simp)) hm).mpr hb
    obtain ⟨m2, h4, h5⟩ := ih (fun o ho => hords o (by simp [ho])) (same_back h3 hb) (same_mapped h3 hm)
    refine ⟨m2, ?_, same_trans h3 h5⟩
    unfold hops
    rw [Res.bind_eq_ok]
    exact ⟨m1, hop_iff.mpr ⟨w, h1, h2⟩, h4⟩

/-- A line in the main chat with an empty name before it is a text without a name to the hub, and to those it passes it on to
it is that line: everybody can speak in the name of everybody else if the hub looks at the name. -/
theorem forged {ord : StrMap → StrMap} {l : Bytes} {x : ChatMessage} (hc : Clear l) (hd : c!"$" ∉ l) (h0 : (0 : Byte) ∉ l) (hu : IsUtf8 l)
    (h : (Msg.chat {}).unmarshal none l = .ok (.chat x)) :
    (Msg.chat {}).unmarshal none (b!"<> " ++ l) = .ok (.chat ⟨[], l⟩) ∧ hop ord (.chat ⟨[], l⟩) = .ok (.chat x) := by
  constructor
  · rw [NmdcReads.message_reads]
    refine ⟨_, rfl, .inr ⟨b!"> " ++ l, [], l, rfl, ?_, ⟨by decide, by simp, [], .nil, by rw [htmlUnescape_id (by simp)]; rfl, utf8_nil⟩, text_self hc h0 hu⟩⟩
    exact ChatSplit.space (n := []) (r := 0x20) (by decide) (by simp) (by simp) (by
      intro u v huv
      have := congrArg List.length huv
      simp at this)
  · rw [hop_iff]
    refine ⟨l, ?_, h⟩
    show ChatMessage.marshal none ⟨[], l⟩ = .ok l
    simp only [ChatMessage.marshal, ne_eq, not_true_eq_false, if_false, str_wire.mpr ⟨h0, (escText_clear hc.1 hc.2.1 hd).symm⟩]
    rfl

/-- A program that passes on what it was sent panics exactly after a chat line without a name and a text, and after a list of extensions with
none in it. -/
theorem panics_iff {ord : StrMap → StrMap} {old m : Msg} {d : Bytes} (hold : old.fresh = old) (hc : Clear d)
    (h : old.unmarshal none d = .ok m) :
    marshalMsg none ord m = .panic ↔
      (old = .chat {} ∧ (d = [] ∨ d = b!"<" ∨ d = b!"<>" ∨ ∃ w ∈ white, d = b!"<>" ++ utf8 w)) ∨
      (old = .supports [] ∧ ∀ b ∈ d, b = c!" ") ∨ (old = .raw [] [] ∧ d = []) := by
  have hr := NmdcReads.message_reads.mp h
  rw [NmdcLines.encoder_panics]
  by_cases hch : ∃ o, old = .chat o
  · obtain ⟨o, rfl⟩ := hch
    cases hold
    obtain ⟨x, rfl, hx⟩ := hr
    simp only [reduceCtorEq, false_or, or_false, false_and, true_and, show (Msg.chat x).typ = [] from rfl, chat_writes_nothing, ← chat_empty hc]
    constructor
    · rintro rfl; exact hx
    · intro he
      have h2 := NmdcReads.message_reads.mpr (show Reads none (.chat {}) d (.chat ⟨[], []⟩) from ⟨_, rfl, he⟩)
      rw [h] at h2
      cases h2
      rfl
  by_cases hsu : ∃ o, old = .supports o
  · obtain ⟨o, rfl⟩ := hsu
    cases hold
    obtain ⟨l, rfl, hl⟩ := hr
    simp only [reduceCtorEq, false_or, or_false, false_and, true_and, Msg.supports.injEq, parts_empty hl,
      show (Msg.supports (l.filter (· ≠ []))).typ = b!"Supports" from rfl]
  cases old with
  | chat o => exact absurd ⟨o, rfl⟩ hch
  | supports o => exact absurd ⟨o, rfl⟩ hsu
  | raw t o =>
    cases hold
    cases hr
    simp only [reduceCtorEq, false_or, false_and, Msg.raw.injEq, and_true]
    show t = [] ∧ Res.ok d = .ok [] ↔ _
    simp
  | errMsg k o => obtain ⟨x, rfl, _⟩ := hr; simp only [reduceCtorEq, false_or, false_and]; cases k <;> simp [Msg.typ, ErrKind.typ]
  | name k o => obtain ⟨x, rfl, _⟩ := hr; simp only [reduceCtorEq, false_or, false_and]; cases k <;> simp [Msg.typ, NameKind.typ]
  | text k o => obtain ⟨x, rfl, _⟩ := hr; simp only [reduceCtorEq, false_or, false_and]; cases k <;> simp [Msg.typ, TextKind.typ]
  | noArgs k => obtain ⟨rfl, _⟩ := hr; simp only [reduceCtorEq, false_or, false_and]; cases k <;> simp [Msg.typ, ArgsKind.typ]
  | value k o => cases hr; simp only [reduceCtorEq, false_or, false_and]; cases k <;> simp [Msg.typ, ValueKind.typ]
  | names k o => obtain ⟨x, rfl, _⟩ := hr; simp only [reduceCtorEq, false_or, false_and]; cases k <;> simp [Msg.typ, ListKind.typ]
  | _ => obtain ⟨x, rfl, _⟩ := hr; simp [Msg.typ]

end

/-! ## Payloads that are passed on as they were seen, and those that are not -/

section
local instance : HtmlEntities := basicEntities

/-- What the hub sees. -/
def seen (old : Msg) (d : Bytes) : Res Msg := old.unmarshal none d

/-- What those see it is passed on to. -/
def passed (old : Msg) (d : Bytes) : Res Msg := seen old d >>= hop id

/-- The hub sees a message, and they see another or none. -/
def changes (old : Msg) (d : Bytes) : Bool :=
  match seen old d with
  | .ok m => passed old d != .ok m
  | _ => false

-- the exceptions: each is accepted, and becomes another message or none
example : seen (.chat {}) b!"<> <op> hi" = .ok (.chat ⟨[], b!"<op> hi"⟩) ∧ passed (.chat {}) b!"<> <op> hi" = .ok (.chat ⟨b!"op", b!"hi"⟩) := by decide +kernel
example : seen (.userCommand {}) b!"-1 1" = .ok (.userCommand { typ := -1, context := 1 }) ∧ passed (.userCommand {}) b!"-1 1" ≠ seen (.userCommand {}) b!"-1 1" := by
  decide +kernel
example : changes (.userCommand {}) b!"1 1 a$" = true := by decide +kernel
example : changes (.userCommand {}) b!"1 1 \\$a" = true := by decide +kernel
example : changes (.userCommand {}) b!"1 1 a \\$x" = true := by decide +kernel
example : changes (.connectToMe {}) b!" host" = true := by decide +kernel
example : changes (.connectToMe {}) b!"joe hostN" = true := by decide +kernel
example : changes (.connectToMe {}) b!"joe host al" = true := by decide +kernel
example : changes (.supports []) [] = true := by decide +kernel
example : changes (.hubINFO {}) b!"n$h$d$1$2$3$4$a b $o" = true := by decide +kernel
example : changes (.adcGet {}) b!"file x 0 18446744073709551609" = true := by decide +kernel
example : changes (.search {}) b!"Hub:joe F?T?0?0?a" = true := by decide +kernel
example : changes (.search {}) b!"Hub:joe F?F?0?1?a" = true := by decide +kernel
example : changes (.sr {}) b!"joe a$b\x055 1/2\x05hub (h)" = true := by decide +kernel
example : changes (.myINFO {}) b!"$ALL joe d$ $c\x01$e$5$" = true := by decide +kernel
example : changes (.myINFO {}) b!"$ALL joe d<c V:1,M:A>$ $$e$5$" = true := by decide +kernel
example : changes (.myINFO {}) b!"$ALL joe d$,$\x01$e$5$" = true := by decide +kernel
-- a name that is too long with its escapes
example : changes (.name .hello []) (List.replicate 100 c!">") = true := by decide +kernel

-- chat lines and extensions that make the program that passes them on panic
example : marshalMsg none id (.chat {}) = .panic ∧ seen (.chat {}) b!"<> " = .ok (.chat {}) ∧ seen (.chat {}) b!"<>" = .ok (.chat {}) ∧
    marshalMsg none id (.supports []) = .panic ∧ seen (.supports []) b!"  " = .ok (.supports []) := by decide +kernel

-- payloads that are passed on
example : Clear b!"<joe> hi" ∧ seen (.chat {}) b!"<joe> hi" = .ok (.chat ⟨b!"joe", b!"hi"⟩) ∧ passed (.chat {}) b!"<joe> hi" = seen (.chat {}) b!"<joe> hi" :=
  ⟨clear_of (by decide +kernel), by decide +kernel, by decide +kernel⟩
example : passed (.userCommand {}) b!"1 3 a\\b$ban " = .ok (.userCommand { typ := 1, context := 3, path := [b!"a", b!"b"], command := b!"ban" }) := by decide +kernel
example : passed (.search {}) b!"Hub:joe T?F?5?1?a$b" = .ok (.search { user := b!"joe", sizeRestricted := true, size := 5, dataType := 1, pattern := b!"a b" }) := by
  decide +kernel
example : passed (.myINFO {}) b!"$ALL joe d<c V:1,M:A,H:1,F:x>$ $c\x01$e$5$" = seen (.myINFO {}) b!"$ALL joe d<c V:1,M:A,H:1,F:x>$ $c\x01$e$5$" := by decide +kernel
-- and through three programs
example : (seen (.sr {}) b!"joe a\\b 1/2\x05hub (h)\x05al" >>= hops [id, List.reverse, id]) = seen (.sr {}) b!"joe a\\b 1/2\x05hub (h)\x05al" := by decide +kernel
-- with escapes it depends on what they stand for
example : seen (.chat {}) b!"&lt;op> hi" = .ok (.chat ⟨[], b!"<op> hi"⟩) ∧ passed (.chat {}) b!"&lt;op> hi" = .ok (.chat ⟨b!"op", b!"hi"⟩) := by decide +kernel
example : seen (.chat {}) b!"<joe> /&#37;DCN036%/" = .ok (.chat ⟨b!"joe", b!"/%DCN036%/"⟩) ∧ passed (.chat {}) b!"<joe> /&#37;DCN036%/" = .ok (.chat ⟨b!"joe", b!"$"⟩) := by
  decide +kernel
example : passed (.chat {}) b!"<joe> &#36;5 &amp; more" = .ok (.chat ⟨b!"joe", b!"$5 & more"⟩) := by decide +kernel

end

end Verif.Props.NmdcRelay
