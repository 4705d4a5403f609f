import Verif.Props.NmdcConn

/-!
# C101: what `Unmarshal` makes of a buffer
-/

namespace Verif.Props.NmdcUnmarshal

open Verif.Go Verif.Nmdc Verif.Lineproto Verif.Spec
open Verif.Props.LineReader (chunks Session Trans Shows AllShow Wire Op)
open Verif.Props.NmdcReader

variable [HtmlEntities] {Z : Type} (I : Inflater Z) (left : Codec → Msg → Bytes → Msg)

/-- An end of the stream is always unexpected. -/
def noEOF : Except Err (Option Msg) → Except Err (Option Msg)
  | .error .eof => .error .unexpectedEOF
  | res => res

/-- The result of `Unmarshal` for a buffer: leading keep-alives are skipped, the first line after them is decoded as by `ReadMsg` with a
new reader, and what follows the line is not looked at. A buffer without the end of a line is an unexpected end. Lines are at most as long
as the default limit of the line reader. -/
inductive First (dec : Codec) : Bytes → Except Err (Option Msg) → Prop
  | keepAlive {data : Bytes} {res : Except Err (Option Msg)} (t : First dec data res) : First dec (delim :: data) res
  | line {l : Bytes} (rest : Bytes) {res : Except Err (Option Msg)} (hne : l ≠ [delim]) (hl : IsLine delim l)
      (hlen : (l.length : Int) ≤ 32768) (h : Delivers dec 32 l res) : First dec (l ++ rest) (noEOF res)
  | short {tail : Bytes} (h : delim ∉ tail) (hlen : (tail.length : Int) < 32768) : First dec tail (.error .unexpectedEOF)

omit [HtmlEntities] in
theorem lines_session (x : Bytes) (res : Bytes × Option Err) (w1 : Wire) (ht : Trans I delim maxLineDef ⟨false, [], x⟩ .line w1)
    (hs : ∀ o, Shows delim ⟨false, [], x⟩ .line o → o = .line res) : ∀ n : Nat,
    ∃ ws, Session I delim maxLineDef ⟨false, [], List.replicate n delim ++ x⟩ (List.replicate (n + 1) .line) ws ∧
      ∀ os, AllShow delim ws (List.replicate (n + 1) .line) os → os = (List.replicate n ([delim], none) ++ [res]).map Obs.line := by
  intro n
  induction n with
  | zero =>
    refine ⟨[_], .cons _ _ _ _ _ (by simpa using ht) (.nil _), ?_⟩
    intro os h
    match os, h with
    | [o], h => rw [hs o (by simpa using h.1)]; rfl
    | [], h => exact absurd h (by simp [AllShow])
    | _ :: _ :: _, h => exact absurd h.2 (by simp [AllShow])
  | succ n ih =>
    obtain ⟨ws, h1, h2⟩ := ih
    have hline : IsLine delim [delim] := ⟨[], by simp, rfl⟩
    refine ⟨⟨false, [], List.replicate (n + 1) delim ++ x⟩ :: ws, .cons _ ⟨false, [], List.replicate n delim ++ x⟩ _ _ _ ?_ h1, ?_⟩
    · exact .line _ [delim] (List.replicate n delim ++ x) (by simp [List.replicate_succ]) hline (.inr (by decide))
    · intro os h
      rw [List.replicate_succ] at h
      match os, h with
      | [], h => exact absurd h (by simp [AllShow])
      | o :: os, h =>
        rw [h2 os h.2]
        have : o = .line ([delim], none) := by
          cases h.1 with
          | line l rest hw hl =>
            rw [Props.LineDuplex.isLine_unique hl hline (r := rest) (r' := List.replicate n delim ++ x)
              (by simpa [List.replicate_succ] using hw.symm)]
          | tail h3 => simp at h3
        rw [this]; rfl

omit [HtmlEntities] in
/-- The buffer is handed to the line reader in one piece. -/
theorem lines_of (x : Bytes) (res : Bytes × Option Err) (w1 : Wire) (ht : Trans I delim maxLineDef ⟨false, [], x⟩ .line w1)
    (hs : ∀ o, Shows delim ⟨false, [], x⟩ .line o → o = .line res) (n : Nat) :
    ∃ r', Reader.Runs I (newReader (bytesReader (List.replicate n delim ++ x)) delim : Reader Z)
      ((List.replicate n ([delim], none) ++ [res]).map Obs.line) r' := by
  obtain ⟨ws, h1, h2⟩ := lines_session I x res w1 ht hs n
  by_cases hne : List.replicate n delim ++ x = []
  · obtain ⟨os, r', h3, h4⟩ := Props.LineReader.session_exact I [] (by simp) delim maxLineDef _ ws (by simpa [hne] using h1)
    rw [h2 os h4] at h3
    refine ⟨r', ?_⟩
    rw [show bytesReader (List.replicate n delim ++ x) = chunks [] by simp [bytesReader, hne, chunks]]
    exact h3
  · obtain ⟨os, r', h3, h4⟩ := Props.LineReader.session_exact I [List.replicate n delim ++ x] (by simpa using hne) delim maxLineDef _ ws
      (by simpa using h1)
    rw [h2 os h4] at h3
    refine ⟨r', ?_⟩
    rw [show bytesReader (List.replicate n delim ++ x) = chunks [List.replicate n delim ++ x] by simp [bytesReader, hne, chunks]]
    exact h3

theorem unmarshal_of_reads {dec : Codec} {data : Bytes} {res : Except Err (Option Msg)} {r' : NReader Z}
    (h : Reads I left { lines := newReader (bytesReader data) delim, dec } res r') :
    ∃ k, ∀ fuel ≥ k, unmarshalMsg I left fuel dec data = .val (noEOF res) := by
  obtain ⟨k, hk⟩ := h
  refine ⟨k, fun f hf => ?_⟩
  have := hk f hf
  unfold unmarshalMsg
  simp only [newNReader]
  rw [this]
  unfold noEOF
  cases res with
  | ok m => rfl
  | error e => cases e <;> rfl

/-- **C101.** `Unmarshal` returns what the buffer says. -/
theorem unmarshal_first {dec : Codec} {data : Bytes} {res : Except Err (Option Msg)} (h : First dec data res) :
    ∃ k, ∀ fuel ≥ k, unmarshalMsg I left fuel dec data = .val res := by
  have main : ∀ n : Nat, ∃ k, ∀ fuel ≥ k, unmarshalMsg I left fuel dec (List.replicate n delim ++ data) = .val res := by
    induction h with
    | @keepAlive data res t ih =>
      intro n
      obtain ⟨k, hk⟩ := ih (n + 1)
      exact ⟨k, fun f hf => by rw [← hk f hf, List.replicate_succ']; simp⟩
    | @line l rest res hne hl hlen h =>
      intro n
      obtain ⟨r', hr⟩ := lines_of I (l ++ rest) (l, none) _ (.line _ l rest rfl hl (.inr hlen)) (fun o ho => by
        cases ho with
        | line l2 rest2 h2 hl2 => rw [Props.LineDuplex.isLine_unique hl2 hl (r := rest2) (r' := rest) (by simpa using h2.symm)]
        | tail h => exact absurd (Props.LineDuplex.isLine_not_tail (r := rest) hl) (by simpa using h)) n
      exact unmarshal_of_reads I left (reads_delivers I left
        ({ lines := newReader (bytesReader (List.replicate n delim ++ (l ++ rest))) delim, dec } : NReader Z) rfl n l hl h r' hr)
    | @short tail h hlen =>
      intro n
      obtain ⟨r', hr⟩ := lines_of I tail (tail, some .eof) _ (.tail _ (by simpa using h) (.inr hlen)) (fun o ho => by
        cases ho with
        | line l2 rest2 h2 hl2 =>
          obtain ⟨b, _, rfl⟩ := hl2
          simp only [List.nil_append] at h2
          subst h2
          simp at h
        | tail h => rfl) n
      exact unmarshal_of_reads I left (read_error I left
        ({ lines := newReader (bytesReader (List.replicate n delim ++ tail)) delim, dec } : NReader Z) rfl n tail .eof r' hr)
  simpa using main 0

/-- The end of the stream is never what `Unmarshal` reports, for any buffer. -/
theorem unmarshal_never_eof (fuel : Nat) (dec : Codec) (data : Bytes) : unmarshalMsg I left fuel dec data ≠ .val (.error .eof) := by
  unfold unmarshalMsg
  split
  · simp
  · rename_i hne _
    intro h
    simp only [Exec.val.injEq] at h
    subst h
    simp_all
  · simp
  · simp

/-- The decoder of the line panics. -/
def Crashes (dec : Codec) (l : Bytes) : Prop :=
  (∃ typ args, LineIs 32 l (.command typ args) ∧ (newMessage typ).unmarshal dec args = .panic) ∨
  ∃ text, LineIs 32 l (.chat text) ∧ (Msg.chat {}).unmarshal dec text = .panic

theorem delivers_or_crashes (dec : Codec) (l : Bytes) (hl : IsLine delim l) (hne : l ≠ [delim]) :
    (∃ res, Delivers dec 32 l res) ∨ Crashes dec l := by
  obtain ⟨⟨v, hv⟩, _⟩ := lines_covered 32 l hl hne
  cases v with
  | violation => exact .inl ⟨_, _, hv, rfl⟩
  | command typ args =>
    cases h : (newMessage typ).unmarshal dec args with
    | ok m => exact .inl ⟨_, _, hv, .inl ⟨m, h, rfl⟩⟩
    | err e => exact .inl ⟨_, _, hv, .inr ⟨e, h, rfl⟩⟩
    | panic => exact .inr (.inl ⟨_, _, hv, h⟩)
  | chat text =>
    cases h : (Msg.chat {}).unmarshal dec text with
    | ok m => exact .inl ⟨_, _, hv, .inl ⟨m, h, rfl⟩⟩
    | err e => exact .inl ⟨_, _, hv, .inr ⟨e, h, rfl⟩⟩
    | panic => exact .inr (.inr ⟨_, hv, h⟩)

omit [HtmlEntities] in
theorem line_or_not (data : Bytes) : delim ∉ data ∨ ∃ l rest, IsLine delim l ∧ data = l ++ rest := by
  induction data with
  | nil => exact .inl (by simp)
  | cons b data ih =>
    by_cases hb : b = delim
    · exact .inr ⟨[b], data, ⟨[], by simp, by simp [hb]⟩, rfl⟩
    · rcases ih with h | ⟨l, rest, ⟨x, hx, rfl⟩, rfl⟩
      · exact .inl (by simp [h, Ne.symm hb])
      · exact .inr ⟨b :: x ++ [delim], rest, ⟨b :: x, by simp [hx, Ne.symm hb], rfl⟩, by simp⟩

/-- The specification says something about every buffer with lines within the limit, unless the decoder panics on the first line. -/
theorem first_covers (dec : Codec) (data : Bytes) (hmax : ∀ x, x <:+: data → delim ∉ x → (x.length : Int) < 32768) :
    (∃ res, First dec data res) ∨ ∃ n l rest, data = List.replicate n delim ++ l ++ rest ∧ IsLine delim l ∧ Crashes dec l := by
  match h : data.length with
  | n =>
    induction n using Nat.strongRecOn generalizing data with
    | _ n ih =>
      rcases line_or_not data with h1 | ⟨l, rest, hl, rfl⟩
      · exact .inl ⟨_, .short h1 (hmax data (List.infix_refl _) h1)⟩
      · by_cases hne : l = [delim]
        · subst hne
          rcases ih rest.length (by simp at h; omega) rest (fun x hx => hmax x (hx.trans ⟨[delim], [], by simp⟩)) rfl with
            ⟨res, hf⟩ | ⟨k, l, rest', rfl, h2⟩
          · exact .inl ⟨res, .keepAlive hf⟩
          · exact .inr ⟨k + 1, l, rest', by simp [List.replicate_succ], h2⟩
        · rcases delivers_or_crashes dec l hl hne with ⟨res, hd⟩ | hc
          · obtain ⟨b, hb, rfl⟩ := hl
            have := hmax b ⟨[], [delim] ++ rest, by simp⟩ hb
            exact .inl ⟨_, .line rest hne ⟨b, hb, rfl⟩ (by simp; omega) hd⟩
          · exact .inr ⟨0, l, rest, by simp, hl, hc⟩

/-- A keep-alive and two messages: the first is returned. A command without the end of its line: an unexpected end. Nothing at all too. -/
example : letI := basicEntities
    First none b!"|$Hello joe|<joe> hi|" (.ok (some (.name .hello b!"joe"))) ∧
    First none b!"||$Hello joe" (.error .unexpectedEOF) ∧ First none [] (.error .unexpectedEOF) ∧
    First none b!"$|$Hello joe|" (.error .protocolViolation) := by
  letI := basicEntities
  have nm : CmdName 32 b!"Hello" := (cmdNameOk_iff 32 _).mp (by decide)
  refine ⟨.keepAlive (.line b!"<joe> hi|" (l := b!"$Hello joe|") (res := .ok (some (.name .hello b!"joe"))) (by decide)
      ⟨b!"$Hello joe", by decide, rfl⟩ (by decide) ⟨_, .command b!"Hello" b!"joe" nm (by decide), .inl ⟨_, by decide, rfl⟩⟩),
    .keepAlive (.keepAlive (.short (by decide) (by decide))), .short (by decide) (by decide),
    .line b!"$Hello joe|" (l := b!"$|") (res := .error .protocolViolation) (by decide) ⟨b!"$", by decide, rfl⟩ (by decide)
      ⟨_, .badName [] [] (by decide) (fun h => absurd h.1 (by decide)) (.inl rfl), rfl⟩⟩

end Verif.Props.NmdcUnmarshal
