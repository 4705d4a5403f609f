import Verif.Props.NmdcLeft
import Verif.Props.NmdcReaderHooks

/-!
# Reading a line again with another decoder (C98)

The reader of the model leaves open what a decoder that fails leaves in the message (`left`).  Here it is what the code does,
`Msg.left`.
-/

namespace Verif.Props.NmdcRetry

open Verif.Go Verif.Nmdc Verif.Lineproto Verif.Props.NmdcReader Verif.Props.NmdcReaderHooks Verif.Props.NmdcLeft
open Verif.Spec hiding value

set_option linter.unusedSectionVars false
variable [HtmlEntities] {Z : Type} (I : Inflater Z)

/-- A decoder that fails does not change the type of the message. -/
theorem left_typ (dec : Codec) (m : Msg) (d : Bytes) : (Msg.left dec m d).typ = m.typ := by
  cases m <;> rfl

/-- **C98, `ReadMsg`.** When a line cannot be decoded because of its text encoding and `OnUnknownEncoding` returns a decoder, the
message returned is the one that the line gives with that decoder, as if it had been set before; it is the decoder from now on. -/
theorem read_again (f : Bytes → Except Err Codec) (r : NReader Z) (henv : r.env = onlyEnc f) (n : Nat) (l typ args : Bytes)
    (hv : LineIs r.maxCmdName l (.command typ args)) (lr : Reader Z) (hr : Lines I r (afterKeepAlives n l) lr) (text : Bytes)
    (hu : (newMessage typ).unmarshal r.dec args = .err (.unknownEncoding text)) (d : Bytes → Option Bytes) (hf : f text = .ok (some d)) :
    Decodes (some d) (newMessage typ) args fun
      | .ok m => Reads I Msg.left r (.ok (some m)) { r with lines := lr, dec := some d }
      | .error e => Reads I Msg.left r (.error e) { r with lines := lr, dec := some d } := by
  have := (encoding_fallback I Msg.left f r henv n l _ hv lr hr text).1 typ args rfl hu
  unfold FallsBack at this
  rw [hf] at this
  simp only [Decodes, retry r.dec (some d) _ args text hu] at this
  simp only [Decodes]
  exact this

/-- The same for a chat message. -/
theorem read_again_chat (f : Bytes → Except Err Codec) (r : NReader Z) (henv : r.env = onlyEnc f) (n : Nat) (l t : Bytes)
    (hv : LineIs r.maxCmdName l (.chat t)) (lr : Reader Z) (hr : Lines I r (afterKeepAlives n l) lr) (text : Bytes)
    (hu : (Msg.chat {}).unmarshal r.dec t = .err (.unknownEncoding text)) (d : Bytes → Option Bytes) (hf : f text = .ok (some d)) :
    Decodes (some d) (Msg.chat {}) t fun
      | .ok m => Reads I Msg.left r (.ok (some m)) { r with lines := lr, dec := some d }
      | .error e => Reads I Msg.left r (.error e) { r with lines := lr, dec := some d } := by
  have := (encoding_fallback I Msg.left f r henv n l _ hv lr hr text).2 t rfl hu
  unfold FallsBack at this
  rw [hf] at this
  simp only [Decodes, retry r.dec (some d) _ t text hu] at this
  simp only [Decodes]
  exact this

/-- **C98, `ReadMsgTo`.** The same for a message of the caller, whatever it was before. -/
theorem read_to_again (f : Bytes → Except Err Codec) (r : NReader Z) (henv : r.env = onlyEnc f) (m : Msg) (n : Nat) (l typ args : Bytes)
    (hv : LineIs r.maxCmdName l (.command typ args)) (lr : Reader Z) (hr : Lines I r (afterKeepAlives n l) lr) (text : Bytes)
    (ht : m.typ = typ) (hu : m.unmarshal r.dec args = .err (.unknownEncoding text)) (d : Bytes → Option Bytes) (hf : f text = .ok (some d)) :
    Decodes (some d) m args fun
      | .ok m' => ReadsTo I Msg.left r m none m' { r with lines := lr, dec := some d }
      | .error e => ∃ m', ReadsTo I Msg.left r m (some e) m' { r with lines := lr, dec := some d } := by
  have fin : ∀ e m', Consumes (onlyEnc f) Msg.left r.maxCmdName n [(l, none)] (r.start (some m) [])
      (some (e, ⟨some d, some d, some m', [], none⟩)) → ReadsTo I Msg.left r m e m' { r with lines := lr, dec := some d } := by
    intro e m' h
    obtain ⟨k, hk⟩ := loop_of_consumes I (consumes_keepAlives (fun _ => rfl) n 0 (by simpa using h)) r lr henv rfl hr
    exact ⟨k, fun fl hfl => by rw [NReader.readMsgTo, hk fl hfl]; rfl⟩
  have hround := round_command (env := onlyEnc f n) (left := Msg.left) (st := r.start (some m) []) hv rfl
  have hc : m.isChat = false := by
    have htyp : typ ≠ [] := by cases hv with | command _ _ h => exact h.1 | bare _ h => exact h.1
    cases m <;> first | rfl | exact absurd ht.symm htyp
  have hs : (r.start (some m) []).dec = r.dec := rfl
  simp only [targetCmd, NReader.start, hc, ht, ne_eq, not_true_eq_false, Bool.false_eq_true, if_false, decodeInto, tryUnmarshal, hu,
    fallback, onlyEnc, hf, retry r.dec (some d) m args text hu, St.put] at hround
  unfold Decodes
  cases h2 : m.unmarshal (some d) args with
  | panic => trivial
  | ok m' =>
    simp only [h2, Option.map_some, afterDecode, runAll] at hround
    exact fin _ _ (.last n _ _ _ _ hround)
  | err e =>
    simp only [h2, Option.map_some, afterDecode] at hround
    exact ⟨_, fin _ _ (.last n _ _ _ _ hround)⟩

/-- A user whose e-mail is not UTF-8: the first attempt leaves the new name and description and the old e-mail, and the second gives
the user that the decoder gives at once; the tag of the user before stays in both cases. -/
example : letI := basicEntities
    let u : Msg := .myINFO { name := b!"ann", client := ⟨b!"++", b!"0.8"⟩, slots := 5, email := b!"a@b" }
    let d := b!"$ALL joe desc$ $$" ++ [0xE9] ++ b!"$1$"
    let win : Bytes → Option Bytes := fun s => some (s.map fun b => if b = 0xE9 then c!"e" else b)
    u.unmarshal none d = .err (.unknownEncoding [0xE9]) ∧
    Msg.left none u d = .myINFO { name := b!"joe", desc := b!"desc", client := ⟨b!"++", b!"0.8"⟩, slots := 5, email := b!"a@b" } ∧
    (Msg.left none u d).unmarshal (some win) d =
      .ok (.myINFO { name := b!"joe", desc := b!"desc", client := ⟨b!"++", b!"0.8"⟩, slots := 5, email := b!"e", shareSize := 1 }) ∧
    u.unmarshal (some win) d =
      .ok (.myINFO { name := b!"joe", desc := b!"desc", client := ⟨b!"++", b!"0.8"⟩, slots := 5, email := b!"e", shareSize := 1 }) := by
  decide +kernel

/-- After another error the next line decoded into the message can give something else than it would have: the flag of a refused
request is still there. -/
example : letI := basicEntities
    let u : Msg := .adcGet {}
    u.unmarshal none b!"file x 0 1 ZL1 DBx" = .err (.other 40) ∧
    (Msg.left none u b!"file x 0 1 ZL1 DBx").unmarshal none b!"file y 0 1" ≠ u.unmarshal none b!"file y 0 1" := by
  decide +kernel

end Verif.Props.NmdcRetry
