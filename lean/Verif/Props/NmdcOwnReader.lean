import Verif.Nmdc.OwnLemmas
import Verif.Nmdc.Left
import Verif.Props.NmdcOwnWriter

/-!
# Reading NMDC messages of the caller's own types (C108)

The method `UnmarshalNMDC` of such a message is an arbitrary function of the text encoding, the payload and the old value.
-/

namespace Verif.Props.NmdcOwnReader

open Verif.Go Verif.Nmdc Verif.Lineproto Verif.Spec
open Verif.Nmdc.Own (Out Op OWriter Ending OReader Types Methods understood withOwn NoAsk KeepsRaw)
open Verif.Props.NmdcReader (afterKeepAlives)
open Verif.Props.LineReader (chunks toy)

variable [HtmlEntities] {U : Type} {Z : Type} (I : Inflater Z)

/-- The registry `reg` is that of a program which has registered the types named in `calls`, given by their zero values. -/
def Registers (calls : List (Bytes × U)) (reg : Registry.Reg Bytes (Msg ⊕ U)) : Prop :=
  ∃ r0, Registry.Reg.registerAll (Registry.nmdcInit.flatten.map Registry.nmdcCall) [] = .ok r0 ∧
    r0.registerAll (calls.map fun c => (c.1, .inr c.2)) = .ok reg

/-! ## `ReadMsg` and `Unmarshal` -/

/-- **C108 (`ReadMsg`).** A program that has registered types of its own: `ReadMsg` returns what it would have returned without them, except
that the payload of a raw message with one of their names is given to the method of a fresh value of that type, and that value, or the error
of the method, is the result.  The reader stands where it would have stood.  This holds for all callbacks that do not see messages. -/
theorem read_msg (calls : List (Bytes × U)) (u : Methods U) (left : Codec → Msg → Bytes → Msg) (hleft : KeepsRaw left)
    (reg : Registry.Reg Bytes (Msg ⊕ U)) (hreg : Registers calls reg) (r : OReader (Msg ⊕ U) Z)
    (he : ∀ k, (r.env k).unmarshalErr = none ∧ (r.env k).msgHooks = [] ∧ NoAsk u (r.env k)) (fuel : Nat) :
    r.readMsg (u.types left reg) I fuel = withOwn calls u r (r.std.readMsg I left fuel) := by
  obtain ⟨r0, h0, h⟩ := hreg
  have := Own.loop_same calls u I left hleft reg (Own.knows_of r0 reg h0 calls h) fuel 0 r he
  unfold OReader.readMsg NReader.readMsg
  generalize OReader.loop (u.types left reg) I fuel 0 r (r.start none []) = a at this ⊢
  generalize NReader.loop I left fuel 0 r.std (r.std.start none []) = b at this ⊢
  rcases a with ⟨_ | _, _, _⟩ | _ | _ <;> rcases b with ⟨_ | _, _, _⟩ | _ | _ <;> exact this

/-- **C108 (`Unmarshal`).** The same for `Unmarshal`; an `io.EOF` of the method is turned into `io.ErrUnexpectedEOF`. -/
theorem unmarshal (calls : List (Bytes × U)) (u : Methods U) (left : Codec → Msg → Bytes → Msg) (hleft : KeepsRaw left)
    (reg : Registry.Reg Bytes (Msg ⊕ U)) (hreg : Registers calls reg) (dec : Codec) (data : Bytes) (fuel : Nat) :
    Own.unmarshalMsg (u.types left reg) I fuel dec data =
      match unmarshalMsg I left fuel dec data with
      | .panic => .panic
      | .timeout => .timeout
      | .val (.error e) => .val (.error e)
      | .val (.ok none) => .val (.ok none)
      | .val (.ok (some m)) =>
        match understood calls u dec m with
        | .ok v => .val (.ok (some v))
        | .err e => .val (.error (if e = .eof then .unexpectedEOF else e))
        | .panic => .panic := by
  have h := read_msg I calls u left hleft reg hreg ({ Own.newOReader (bytesReader data) with dec } : OReader (Msg ⊕ U) Z)
    (fun k => ⟨rfl, rfl, .inl rfl⟩) fuel
  unfold Own.unmarshalMsg unmarshalMsg
  rw [h]
  have hs : OReader.std ({ Own.newOReader (bytesReader data) with dec } : OReader (Msg ⊕ U) Z) =
      ({ newNReader (bytesReader data) with dec } : NReader Z) := rfl
  rw [hs]
  cases NReader.readMsg I left fuel ({ newNReader (bytesReader data) with dec } : NReader Z) with
  | panic => rfl
  | timeout => rfl
  | val y =>
    obtain ⟨res, r'⟩ := y
    cases res with
    | error e =>
      simp only [withOwn]
      by_cases hx : e = .eof
      · subst hx; rfl
      · cases e <;> first | rfl | exact absurd rfl hx
    | ok m =>
      cases m with
      | none => rfl
      | some m =>
        simp only [withOwn]
        cases understood calls u dec m with
        | ok v => rfl
        | panic => rfl
        | err e =>
          simp only
          by_cases hx : e = .eof
          · subst hx; rfl
          · rw [if_neg hx]
            cases e <;> first | rfl | exact absurd rfl hx

/-! ## Reading into a message of a given type -/

section typed
omit [HtmlEntities]
variable {M : Type} (T : Types M)

/-- A chat message has no name and is not a raw message; the types of every program are so. -/
def Proper : Prop := ∀ m, T.isChat m = true → T.typ m = [] ∧ T.isRaw m = false

theorem round_of (E : Own.Env M) (hraw : E.rawHooks = []) {max : Int} {l : Bytes} (hl : IsLine delim l) {v : Verdict} (hv : LineIs max l v) (st : Own.St M) :
    Own.round T E max (l, none) st = match v with
      | .violation => .ret (some .protocolViolation) st
      | .command typ args => match Own.targetCmd T st typ args with
        | .error e => .ret (some e) st
        | .ok (out, st') => Own.decodeInto T E l.dropLast args out st'
      | .chat text => match Own.targetChat T st text with
        | .error e => .ret (some e) st
        | .ok (out, st') => Own.decodeInto T E l.dropLast text out st' := by
  have hlast : ¬ l.getLast? ≠ some delim := by
    obtain ⟨b, _, rfl⟩ := hl
    simp
  have key : ∀ (t rest a : Bytes), splitCmd (t ++ rest) = (t, a) → (0 : Byte) ∉ b!"$" ++ t ++ rest ++ b!"|" →
      Own.round T E max (b!"$" ++ t ++ rest ++ b!"|", none) st =
        if cmdNameOk max t then (match Own.targetCmd T st t a with
          | .error e => .ret (some e) st
          | .ok (out, st') => Own.decodeInto T E (b!"$" ++ t ++ rest ++ b!"|").dropLast a out st')
        else .ret (some .protocolViolation) st := by
    intro t rest a hsp h0
    have hd : (b!"$" ++ t ++ rest ++ b!"|").dropLast = b!"$" ++ t ++ rest := by rw [List.dropLast_concat]
    unfold Own.round
    simp only
    rw [if_neg (by rw [List.getLast?_concat]; simp [delim]), if_neg h0, hd, if_neg (by simp)]
    simp only [List.cons_append, List.nil_append, Own.roundBody, if_true, hsp, hraw, List.map_nil, runAll]
    rfl
  cases hv with
  | nul _ h0 =>
    unfold Own.round
    simp only
    rw [if_neg hlast, if_pos h0]
  | command t a ht h0 =>
    have := key t (b!" " ++ a) a (by simpa using splitCmd_args (cmdName_clean ht).1) (by simp [(cmdName_clean ht).2.1, h0])
    rw [if_pos ((cmdNameOk_iff max t).mpr ht)] at this
    simpa only [List.append_assoc] using this
  | bare t ht =>
    have := key t [] [] (by simpa using splitCmd_bare (cmdName_clean ht).1) (by simp [(cmdName_clean ht).2.1])
    rw [if_pos ((cmdNameOk_iff max t).mpr ht)] at this
    simpa only [List.append_nil] using this
  | badName t rest hs hn hr =>
    by_cases h0 : (0 : Byte) ∈ b!"$" ++ t ++ rest ++ b!"|"
    · unfold Own.round
      simp only
      rw [if_neg hlast, if_pos h0]
    · have hsp : ∃ a, splitCmd (t ++ rest) = (t, a) := by
        rcases hr with rfl | hr
        · exact ⟨[], by simpa using splitCmd_bare hs⟩
        · cases rest with
          | nil => simp at hr
          | cons b a => simp at hr; subst hr; exact ⟨a, splitCmd_args hs⟩
      obtain ⟨a, ha⟩ := hsp
      have := key t rest a ha h0
      rw [if_neg (by rw [cmdNameOk_iff]; exact hn)] at this
      exact this
  | chat text hne hd h0 =>
    have hdl : (text ++ b!"|").dropLast = text := by rw [List.dropLast_concat]
    unfold Own.round
    simp only
    rw [if_neg hlast, if_neg (by simp [h0]), hdl, if_neg hne]
    cases text with
    | nil => simp at hne
    | cons b t =>
      have : b ≠ c!"$" := by simpa using hd
      simp only [Own.roundBody, if_neg this, hraw, List.map_nil, runAll]
      rfl

theorem loop_const (E : Own.Env M) (r : OReader M Z) (henv : r.env = fun _ => E) (fuel k : Nat) (st : Own.St M) :
    OReader.loop T I fuel k r st = OReader.loop T I fuel 0 r st := by
  induction fuel generalizing r k st with
  | zero => rfl
  | succ fuel ih =>
    have ih' : ∀ (lr : Reader Z) (st' : Own.St M) (k : Nat), OReader.loop T I fuel k { r with lines := lr, dec := st'.rdec } st' =
        OReader.loop T I fuel 0 { r with lines := lr, dec := st'.rdec } st' := fun lr st' k => ih { r with lines := lr, dec := st'.rdec } henv k st'
    simp only [OReader.loop, henv]
    rw [henv] at ih'
    cases r.lines.readLine I fuel with
    | panic => rfl
    | timeout => rfl
    | val y =>
      obtain ⟨res, lr⟩ := y
      simp only
      cases Own.round T E r.maxCmdName res st with
      | ret e st' => rfl
      | panic => rfl
      | again st' => simp only; rw [ih' lr st' (k + 1), ih' lr st' (0 + 1)]

/-- Keep-alives are skipped, and the line decides. -/
theorem loop_line (E : Own.Env M) (hka : E.keepAlive = none) (r : OReader M Z) (henv : r.env = fun _ => E) (n : Nat) (l : Bytes) (lr : Reader Z)
    (hr : Reader.Runs I r.lines ((afterKeepAlives n l).map Obs.line) lr) (st : Own.St M) (hd : st.rdec = r.dec) (k : Nat) :
    (∀ e st', Own.round T E r.maxCmdName (l, none) st = .ret e st' →
      ∃ b, ∀ fuel ≥ b, OReader.loop T I fuel k r st = .val (e, st', { r with lines := lr, dec := st'.rdec })) ∧
    (Own.round T E r.maxCmdName (l, none) st = .panic → ∃ b, ∀ fuel ≥ b, OReader.loop T I fuel k r st = .panic) ∧
    (∀ st', Own.round T E r.maxCmdName (l, none) st = .again st' → st'.rdec = r.dec →
      ∃ b, ∀ fuel ≥ b, ∃ f, fuel ≤ f + b ∧ OReader.loop T I fuel k r st = OReader.loop T I f 0 { r with lines := lr } st') := by
  induction n generalizing r k with
  | zero =>
    simp only [afterKeepAlives, List.replicate_zero, List.nil_append, List.map_cons, List.map_nil] at hr
    cases hr with
    | line _ r1 _ _ _ hl ht =>
      cases ht
      obtain ⟨n, hn⟩ := hl
      refine ⟨fun e st' h => ⟨n + 1, fun fuel hf => ?_⟩, fun h => ⟨n + 1, fun fuel hf => ?_⟩, fun st' h hd' => ?_⟩
      rotate_right 1
      · refine ⟨n + 1, fun fuel hf => ?_⟩
        obtain ⟨f, rfl⟩ : ∃ f, fuel = f + 1 := ⟨fuel - 1, by omega⟩
        refine ⟨f, by omega, ?_⟩
        rw [OReader.loop, hn f (by omega)]
        simp only [henv, h]
        rw [hd', loop_const I T E _ (by rfl) f (k + 1)]
      all_goals
        obtain ⟨f, rfl⟩ : ∃ f, fuel = f + 1 := ⟨fuel - 1, by omega⟩
        rw [OReader.loop, hn f (by omega)]
        simp only [henv, h]
  | succ n ih =>
    simp only [afterKeepAlives, List.replicate_succ, List.cons_append, List.map_cons] at hr
    cases hr with
    | line _ r1 _ _ _ hl ht =>
      obtain ⟨n1, hn1⟩ := hl
      obtain ⟨h1, h2, h3⟩ := ih { r with lines := r1 } henv (by simpa [afterKeepAlives] using ht) hd (k + 1)
      have hkr : Own.round T E r.maxCmdName ([delim], none) st = .again st := by
        simp [Own.round, delim, hka]
      have hsame : ({ r with lines := r1, dec := st.rdec } : OReader M Z) = { r with lines := r1 } := by rw [hd]
      refine ⟨fun e st' h => ?_, fun h => ?_, fun st' h hd' => ?_⟩
      · obtain ⟨b, hb⟩ := h1 e st' h
        refine ⟨n1 + b + 1, fun fuel hf => ?_⟩
        obtain ⟨f, rfl⟩ : ∃ f, fuel = f + 1 := ⟨fuel - 1, by omega⟩
        rw [OReader.loop, hn1 f (by omega)]
        simp only [henv, hkr]
        rw [henv] at hsame hb
        rw [hsame]
        exact hb f (by omega)
      · obtain ⟨b, hb⟩ := h2 h
        refine ⟨n1 + b + 1, fun fuel hf => ?_⟩
        obtain ⟨f, rfl⟩ : ∃ f, fuel = f + 1 := ⟨fuel - 1, by omega⟩
        rw [OReader.loop, hn1 f (by omega)]
        simp only [henv, hkr]
        rw [henv] at hsame hb
        rw [hsame]
        exact hb f (by omega)
      · obtain ⟨b, hb⟩ := h3 st' h hd'
        refine ⟨n1 + b + 1, fun fuel hf => ?_⟩
        obtain ⟨f, rfl⟩ : ∃ f, fuel = f + 1 := ⟨fuel - 1, by omega⟩
        obtain ⟨f', hf', hb⟩ := hb f (by omega)
        refine ⟨f', by omega, ?_⟩
        rw [OReader.loop, hn1 f (by omega)]
        simp only [henv, hkr]
        rw [henv] at hsame hb
        rw [hsame]
        exact hb

/-- `r.ReadMsgTo(m)` returns `e`, the message is now `m'`. -/
def ReadsTo (r : OReader M Z) (m : M) (e : Option Err) (m' : M) (r' : OReader M Z) : Prop :=
  ∃ n, ∀ fuel ≥ n, r.readMsgTo T I fuel (some m) = .val (e, some m', r')

/-- `r.ReadMsgToAny(arr...)` returns `res` (the position of the message decoded, or an error), the messages are now `arr'`. -/
def ReadsToAny (r : OReader M Z) (arr : List M) (res : Except Err (Option Nat)) (arr' : List M) (r' : OReader M Z) : Prop :=
  ∃ n, ∀ fuel ≥ n, r.readMsgToAny T I fuel arr = .val (res, arr', r')

/-- What the method of the message `m` does with the text: the error, if any, and the new value; on a panic nothing is claimed. -/
def Decodes (dec : Codec) (m : M) (text : Bytes) (P : Option Err → M → Prop) : Prop :=
  match T.unmarshal dec text m with
  | (.ok _, m') => P none m'
  | (.err e, m') => P (some e) m'
  | (.panic, _) => True

/-- The name and arguments of a line, as an error reports them. -/
def lineParts : Verdict → Bytes × Bytes
  | .violation => ([], [])
  | .command typ args => (typ, args)
  | .chat text => ([], text)

/-- The message is of the type of the line. -/
def SameType (v : Verdict) (m : M) : Prop :=
  match v with
  | .violation => False
  | .command typ _ => T.typ m = typ
  | .chat _ => T.isChat m = true

theorem decode_plain {orig args : Bytes} {m : M} {st : Own.St M} :
    Own.decodeInto T {} orig args m st = match T.unmarshal st.dec args m with
      | (.ok _, m') => .ret none (st.put m')
      | (.err e, m') => .ret (some e) (st.put m')
      | (.panic, _) => .panic := by
  unfold Own.decodeInto Own.tryUnmarshal
  obtain ⟨res, m'⟩ := T.unmarshal st.dec args m
  cases res <;> simp [Own.fallback, Own.afterDecode, runAll]

theorem put_rdec (st : Own.St M) (m : M) : (st.put m).rdec = st.rdec := by
  unfold Own.St.put
  cases st.arr with
  | nil => rfl
  | cons _ _ => cases st.hit <;> rfl

/-- **C108 (`ReadMsgTo`).** For messages of any types, on a connection without callbacks, after any keep-alives: `ReadMsgTo(m)` gives the
text of the line to the method of `m` if the line is of the type of `m`; otherwise it returns an error and does not touch `m`. -/
theorem read_to (hT : Proper T) (r : OReader M Z) (henv : r.env = fun _ => {}) (m : M) (n : Nat) (l : Bytes) (hl : IsLine delim l)
    (v : Verdict) (hv : LineIs r.maxCmdName l v) (lr : Reader Z)
    (hr : Reader.Runs I r.lines ((afterKeepAlives n l).map Obs.line) lr) :
    (v = .violation → ReadsTo I T r m (some .protocolViolation) m { r with lines := lr }) ∧
    (SameType T v m → Decodes T r.dec m (lineParts v).2 fun e m' => ReadsTo I T r m e m' { r with lines := lr }) ∧
    (v ≠ .violation → ¬ SameType T v m →
      ReadsTo I T r m (some (.unexpectedCommand (T.typ m) (lineParts v).1 (lineParts v).2)) m { r with lines := lr }) := by
  have hround := round_of T {} rfl hl hv (r.start (some m) [])
  have hloop := (loop_line I T {} rfl r henv n l lr hr (r.start (some m) []) rfl 0).1
  have fin : ∀ e st', Own.round T {} r.maxCmdName (l, none) (r.start (some m) []) = .ret e st' → st'.rdec = r.dec →
      ∀ m', st'.cur = some m' → ReadsTo I T r m e m' { r with lines := lr } := by
    intro e st' h hd m' hm
    obtain ⟨b, hb⟩ := hloop e st' h
    exact ⟨b, fun f hf => by simp only [OReader.readMsgTo, hb f hf, hd, hm]⟩
  cases v with
  | violation =>
    refine ⟨fun _ => fin _ _ hround rfl m rfl, fun h => h.elim, fun h => absurd rfl h⟩
  | command typ args =>
    have htyp : typ ≠ [] := by cases hv with | command _ _ h => exact h.1 | bare _ h => exact h.1
    simp only [Own.targetCmd, OReader.start] at hround
    refine ⟨fun h => by simp at h, fun hs => ?_, fun _ hs => ?_⟩
    · have hs : T.typ m = typ := hs
      have hc : T.isChat m = false := by
        cases h : T.isChat m with
        | false => rfl
        | true => exact absurd ((hT m h).1.symm.trans hs).symm htyp
      simp only [hc, hs, decode_plain, Bool.false_eq_true, if_false, ne_eq, not_true_eq_false] at hround
      unfold Decodes lineParts
      cases hu : T.unmarshal r.dec args m with
      | mk res m' =>
        rw [hu] at hround
        cases res with
        | panic => trivial
        | ok _ => exact fin _ _ hround rfl m' rfl
        | err e => exact fin _ _ hround rfl m' rfl
    · have hs : ¬ T.typ m = typ := hs
      by_cases hc : T.isChat m = true
      · simp only [hc, if_true] at hround
        rw [(hT m hc).1]
        exact fin _ _ hround rfl m rfl
      · simp only [hc, Bool.false_eq_true, if_false, hs, ne_eq, not_false_eq_true, if_true] at hround
        exact fin _ _ hround rfl m rfl
  | chat text =>
    simp only [Own.targetChat, OReader.start] at hround
    refine ⟨fun h => by simp at h, fun hs => ?_, fun _ hs => ?_⟩
    · have hs : T.isChat m = true := hs
      simp only [hs, decode_plain, if_true] at hround
      unfold Decodes lineParts
      cases hu : T.unmarshal r.dec text m with
      | mk res m' =>
        rw [hu] at hround
        cases res with
        | panic => trivial
        | ok _ => exact fin _ _ hround rfl m' rfl
        | err e => exact fin _ _ hround rfl m' rfl
    · have hs : ¬ T.isChat m = true := hs
      simp only [hs, Bool.false_eq_true, if_false] at hround
      exact fin _ _ hround rfl m rfl

/-- `m` is at position `i` and is the first with property `p`. -/
def FirstWith (p : M → Bool) (arr : List M) (i : Nat) (m : M) : Prop :=
  arr[i]? = some m ∧ p m = true ∧ ∀ j m', j < i → arr[j]? = some m' → p m' = false

theorem pick_spec (p : M → Bool) (arr : List M) (k : Nat) :
    (∀ i m, FirstWith p arr i m → Own.pick p arr k = some (k + i, m)) ∧ ((∀ m ∈ arr, p m = false) → Own.pick p arr k = none) := by
  induction arr generalizing k with
  | nil => exact ⟨fun i m h => by simp [FirstWith] at h, fun _ => rfl⟩
  | cons x arr ih =>
    constructor
    · intro i m h
      unfold Own.pick
      cases i with
      | zero =>
        obtain ⟨h1, h2, _⟩ := h
        simp at h1; subst h1
        rw [if_pos h2]; rfl
      | succ i =>
        obtain ⟨h1, h2, h3⟩ := h
        have hx : p x = false := h3 0 x (by omega) rfl
        rw [if_neg (by simp [hx])]
        rw [(ih (k + 1)).1 i m ⟨by simpa using h1, h2, fun j m' hj hm => h3 (j + 1) m' (by omega) (by simpa using hm)⟩]
        congr 2; omega
    · intro h
      unfold Own.pick
      rw [if_neg (by simp [h x (by simp)])]
      exact (ih (k + 1)).2 fun m hm => h m (by simp [hm])

/-- The targets that may take a line: a raw message, a message of the same name; for chat, a chat message. -/
def takes (v : Verdict) (m : M) : Bool :=
  match v with
  | .violation => false
  | .command typ _ => T.isRaw m || T.typ m = typ
  | .chat _ => T.isRaw m || T.isChat m

/-- **C108 (`ReadMsgToAny`).** For messages of any types, on a connection without callbacks, after any keep-alives: if no target takes the
line there is an error with the name of the first target; the first target that takes the line gets its text if it is of its type, and
otherwise (it is a raw message of another name) there is an error.  No other target is touched. -/
theorem read_to_any (hT : Proper T) (r : OReader M Z) (henv : r.env = fun _ => {}) (first : M) (more : List M) (n : Nat) (l : Bytes)
    (hl : IsLine delim l) (v : Verdict) (hv : LineIs r.maxCmdName l v) (lr : Reader Z)
    (hr : Reader.Runs I r.lines ((afterKeepAlives n l).map Obs.line) lr) :
    (v = .violation → ReadsToAny I T r (first :: more) (.error .protocolViolation) (first :: more) { r with lines := lr }) ∧
    (v ≠ .violation → (∀ m ∈ first :: more, takes T v m = false) →
      ReadsToAny I T r (first :: more) (.error (.unexpectedCommand (T.typ first) (lineParts v).1 (lineParts v).2)) (first :: more)
        { r with lines := lr }) ∧
    (∀ i m, FirstWith (takes T v) (first :: more) i m →
      (SameType T v m → Decodes T r.dec m (lineParts v).2 fun e m' =>
        ReadsToAny I T r (first :: more) (match e with | none => .ok (some i) | some e => .error e) ((first :: more).set i m')
          { r with lines := lr }) ∧
      (¬ SameType T v m → T.isRaw m = true ∧
        ReadsToAny I T r (first :: more) (.error (.unexpectedCommand (T.typ m) (lineParts v).1 (lineParts v).2)) (first :: more)
          { r with lines := lr })) := by
  generalize harr : first :: more = arr
  have hround := round_of T {} rfl hl hv (r.start none arr)
  have hloop := (loop_line I T {} rfl r henv n l lr hr (r.start none arr) rfl 0).1
  have hget : (r.start none arr).arr = first :: more := harr.symm
  have fin : ∀ e st', Own.round T {} r.maxCmdName (l, none) (r.start none arr) = .ret e st' → st'.rdec = r.dec →
      ReadsToAny I T r arr (match e with | none => .ok st'.hit | some e => .error e) st'.arr { r with lines := lr } := by
    intro e st' h hd
    obtain ⟨b, hb⟩ := hloop e st' h
    refine ⟨b, fun f hf => ?_⟩
    subst harr
    unfold OReader.readMsgToAny
    rw [hb f hf]
    cases e <;> simp only [hd]
  have hput : ∀ i m', (Own.St.mk r.dec (r.start none arr).rdec (r.start none arr).cur arr (some i)).put m' =
      ⟨r.dec, r.dec, none, arr.set i m', some i⟩ := by
    intro i m'; subst harr; rfl
  have hdec : (r.start none arr).dec = r.dec := rfl
  cases v with
  | violation =>
    refine ⟨fun _ => fin _ _ hround rfl, fun h => absurd rfl h, ?_⟩
    intro i m h
    exact absurd h.2.1 (by simp [takes])
  | command typ args =>
    have htyp : typ ≠ [] := by cases hv with | command _ _ h => exact h.1 | bare _ h => exact h.1
    simp only [Own.targetCmd, hget] at hround
    refine ⟨fun h => by simp at h, ?_, ?_⟩
    · intro _ hno
      have : Own.pick (fun m => T.isRaw m || decide (T.typ m = typ)) arr 0 = none := (pick_spec (takes T (.command typ args)) arr 0).2 hno
      rw [harr, this] at hround
      exact fin _ _ hround rfl
    · intro i m hf
      have : Own.pick (fun m => T.isRaw m || decide (T.typ m = typ)) arr 0 = some (i, m) := by
        have := (pick_spec (takes T (.command typ args)) arr 0).1 i m hf
        rwa [Nat.zero_add] at this
      rw [harr, this] at hround
      simp only at hround
      refine ⟨fun hs => ?_, fun hs => ?_⟩
      · have hs : T.typ m = typ := hs
        have hc : T.isChat m = false := by
          cases h : T.isChat m with
          | false => rfl
          | true => exact absurd ((hT m h).1.symm.trans hs).symm htyp
        rw [hc] at hround
        simp only [Bool.false_eq_true, if_false, hs, ne_eq, not_true_eq_false, decode_plain, hput, hdec] at hround
        unfold Decodes lineParts
        cases hu : T.unmarshal r.dec args m with
        | mk res m' =>
          rw [hu] at hround
          cases res with
          | panic => trivial
          | ok _ => exact fin _ _ hround rfl
          | err e => exact fin _ _ hround rfl
      · have hs : ¬ T.typ m = typ := hs
        have hraw : T.isRaw m = true := by
          have := hf.2.1
          simpa [takes, hs] using this
        have hc : T.isChat m = false := by
          cases h : T.isChat m with
          | false => rfl
          | true => exact absurd hraw (by simp [(hT m h).2])
        rw [hc] at hround
        simp only [Bool.false_eq_true, if_false, hs, ne_eq, not_false_eq_true, if_true] at hround
        exact ⟨hraw, fin _ _ hround rfl⟩
  | chat text =>
    simp only [Own.targetChat, hget] at hround
    refine ⟨fun h => by simp at h, ?_, ?_⟩
    · intro _ hno
      have : Own.pick (fun m => T.isRaw m || T.isChat m) arr 0 = none := (pick_spec (takes T (.chat text)) arr 0).2 hno
      rw [harr, this] at hround
      exact fin _ _ hround rfl
    · intro i m hf
      have : Own.pick (fun m => T.isRaw m || T.isChat m) arr 0 = some (i, m) := by
        have := (pick_spec (takes T (.chat text)) arr 0).1 i m hf
        rwa [Nat.zero_add] at this
      rw [harr, this] at hround
      simp only at hround
      refine ⟨fun hs => ?_, fun hs => ?_⟩
      · have hs : T.isChat m = true := hs
        simp only [hs, if_true, decode_plain, hput, hdec] at hround
        unfold Decodes lineParts
        cases hu : T.unmarshal r.dec text m with
        | mk res m' =>
          rw [hu] at hround
          cases res with
          | panic => trivial
          | ok _ => exact fin _ _ hround rfl
          | err e => exact fin _ _ hround rfl
      · have hs : ¬ T.isChat m = true := hs
        have hraw : T.isRaw m = true := by
          have := hf.2.1
          simpa [takes, hs] using this
        simp only [hs, Bool.false_eq_true, if_false] at hround
        exact ⟨hraw, fin _ _ hround rfl⟩

end typed

/-- The types of a program are proper. -/
theorem types_proper (u : Methods U) (left : Codec → Msg → Bytes → Msg) (reg : Registry.Reg Bytes (Msg ⊕ U)) : Proper (u.types left reg) := by
  intro m h
  cases m with
  | inr x => cases h
  | inl m => cases m <;> first | exact ⟨rfl, rfl⟩ | cases h

/-- A message of the caller whose name is empty is never read, neither from a chat line nor from any other. -/
theorem nameless (u : Methods U) (left : Codec → Msg → Bytes → Msg) (reg : Registry.Reg Bytes (Msg ⊕ U)) (x : U) (hx : u.typ x = [])
    (r : OReader (Msg ⊕ U) Z) (henv : r.env = fun _ => {}) (n : Nat) (l : Bytes) (hl : IsLine delim l) (v : Verdict)
    (hv : LineIs r.maxCmdName l v) (lr : Reader Z) (hr : Reader.Runs I r.lines ((afterKeepAlives n l).map Obs.line) lr) :
    ∃ e, ReadsTo I (u.types left reg) r (.inr x) (some e) (.inr x) { r with lines := lr } := by
  have h := read_to I (u.types left reg) (types_proper u left reg) r henv (.inr x) n l hl v hv lr hr
  cases v with
  | violation => exact ⟨_, h.1 rfl⟩
  | chat text => exact ⟨_, h.2.2 (by simp) (fun hs => by simp [SameType, Methods.types] at hs)⟩
  | command typ args =>
    have htyp : typ ≠ [] := by cases hv with | command _ _ h' => exact h'.1 | bare _ h' => exact h'.1
    exact ⟨_, h.2.2 (by simp) (fun hs => htyp (by simpa [SameType, Methods.types, hx] using hs.symm))⟩

/-! ## Conversations -/

/-- What the receiving side sees of a call. -/
inductive OwnObs (U : Type) where
  | msg (res : Except Err (Option (Msg ⊕ U)))
  | zlib (sched : List (Nat × Bool))

/-- Calls of `ReadMsg` and `EnableZlib` by the receiving side, with their results. -/
inductive OwnSession (T : Types (Msg ⊕ U)) : OReader (Msg ⊕ U) Z → List (OwnObs U) → OReader (Msg ⊕ U) Z → Prop where
  | nil (r : OReader (Msg ⊕ U) Z) : OwnSession T r [] r
  | msg (r r1 r2 : OReader (Msg ⊕ U) Z) (res : Except Err (Option (Msg ⊕ U))) (rest : List (OwnObs U))
      (h : ∃ n, ∀ fuel ≥ n, r.readMsg T I fuel = .val (res, r1)) (t : OwnSession T r1 rest r2) : OwnSession T r (.msg res :: rest) r2
  | zlib (r : OReader (Msg ⊕ U) Z) (lr : Reader Z) (r2 : OReader (Msg ⊕ U) Z) (sched : List (Nat × Bool)) (rest : List (OwnObs U))
      (h : r.lines.EnablesZlib I sched lr) (t : OwnSession T { r with lines := lr } rest r2) : OwnSession T r (.zlib sched :: rest) r2

/-- What a program with types of its own sees where one without them sees `o`; nothing, if a method panics. -/
def seen (calls : List (Bytes × U)) (u : Methods U) (dec : Codec) : NmdcConn.MsgObs → Option (OwnObs U)
  | .zlib sched => some (.zlib sched)
  | .msg (.error e) => some (.msg (.error e))
  | .msg (.ok none) => some (.msg (.ok none))
  | .msg (.ok (some m)) =>
    match understood calls u dec m with
    | .ok v => some (.msg (.ok (some v)))
    | .err e => some (.msg (.error e))
    | .panic => none

theorem round_rdec (left : Codec → Msg → Bytes → Msg) (env : Env) (he : env.unknownEnc = none) (max : Int) (res : Bytes × Option Err)
    (d : Codec) (cur : Option Msg) :
    match round env left max res ⟨d, d, cur, [], none⟩ with
    | .ret _ st' => st'.rdec = d
    | .again st' => st'.rdec = d ∧ st'.dec = d ∧ st'.arr = [] ∧ st'.hit = none
    | .panic => True := by
  have hdec : ∀ (orig args : Bytes) (m : Msg),
      match decodeInto env left orig args m ⟨d, d, some m, [], none⟩ with
      | .ret _ st' => st'.rdec = d
      | .again st' => st'.rdec = d ∧ st'.dec = d ∧ st'.arr = [] ∧ st'.hit = none
      | .panic => True := by
    intro orig args m
    unfold decodeInto tryUnmarshal
    cases m.unmarshal d args with
    | panic => trivial
    | ok m' =>
      simp only [fallback, he, afterDecode, St.put]
      cases runAll m' env.msgHooks <;> simp
    | err e =>
      simp only [fallback, he, afterDecode, St.put]
      cases env.unmarshalErr with
      | none => rfl
      | some f =>
        simp only
        obtain ⟨b, e'⟩ := f orig e
        cases b <;> simp
  obtain ⟨l, e⟩ := res
  cases e with
  | some e => simp [round]
  | none =>
    simp only [round]
    by_cases h1 : l.getLast? ≠ some delim
    · rw [if_pos h1]
    rw [if_neg h1]
    by_cases h2 : (0 : Byte) ∈ l
    · rw [if_pos h2]
    rw [if_neg h2]
    by_cases h3 : l.dropLast = []
    · rw [if_pos h3]
      cases env.keepAlive <;> simp
    rw [if_neg h3]
    cases l.dropLast with
    | nil => simp [roundBody]
    | cons b line =>
      simp only [roundBody]
      by_cases hb : b = c!"$"
      · rw [if_pos hb]
        obtain ⟨cmd, args⟩ := splitCmd line
        simp only
        cases runAll () (env.rawHooks.map fun h _ => h (some cmd) args) with
        | fail e => simp
        | drop => simp
        | accept =>
          simp only
          by_cases hok : cmdNameOk max cmd = true
          · rw [if_pos hok]
            simp only [targetCmd]
            cases cur with
            | none => exact hdec _ _ _
            | some m =>
              simp only
              by_cases hc : m.isChat = true
              · rw [if_pos hc]
              rw [if_neg hc]
              by_cases ht : m.typ ≠ cmd
              · rw [if_pos ht]
              rw [if_neg ht]
              exact hdec _ _ _
          · rw [if_neg hok]
      · rw [if_neg hb]
        cases runAll () (env.rawHooks.map fun h _ => h none (b :: line)) with
        | fail e => simp
        | drop => simp
        | accept =>
          simp only [targetChat]
          cases cur with
          | none => exact hdec _ _ _
          | some m =>
            simp only
            by_cases hc : m.isChat = true
            · rw [if_pos hc]; exact hdec _ _ _
            rw [if_neg hc]

theorem readMsg_dec (left : Codec → Msg → Bytes → Msg) (r : NReader Z) (he : ∀ k, (r.env k).unknownEnc = none) (fuel : Nat)
    {res : Except Err (Option Msg)} {r' : NReader Z} (h : r.readMsg I left fuel = .val (res, r')) :
    r' = { r with lines := r'.lines } := by
  have key : ∀ (fuel k : Nat) (r : NReader Z) (cur : Option Msg), (∀ k, (r.env k).unknownEnc = none) → ∀ e st r',
      NReader.loop I left fuel k r ⟨r.dec, r.dec, cur, [], none⟩ = .val (e, st, r') → r' = { r with lines := r'.lines } := by
    intro fuel
    induction fuel with
    | zero => intro k r cur he e st r' h; cases h
    | succ fuel ih =>
      intro k r cur he e st r' h
      rw [NReader.loop] at h
      cases hl : r.lines.readLine I fuel with
      | panic => rw [hl] at h; cases h
      | timeout => rw [hl] at h; cases h
      | val y =>
        obtain ⟨res, lr⟩ := y
        rw [hl] at h
        simp only at h
        have hr := round_rdec left (r.env k) (he k) r.maxCmdName res r.dec cur
        cases hx : round (r.env k) left r.maxCmdName res ⟨r.dec, r.dec, cur, [], none⟩ with
        | panic => rw [hx] at h; cases h
        | ret e' st' =>
          rw [hx] at h hr
          simp only at h hr
          cases h
          simp only [hr]
        | again st' =>
          rw [hx] at h hr
          simp only at h hr
          obtain ⟨d1, d2, c1, a1, h1⟩ := st'
          simp only at hr
          obtain ⟨rfl, rfl, rfl, rfl⟩ := hr
          exact ih (k + 1) { r with lines := lr } c1 he e st r' h
  unfold NReader.readMsg at h
  cases hl : NReader.loop I left fuel 0 r (r.start none []) with
  | panic => rw [hl] at h; cases h
  | timeout => rw [hl] at h; cases h
  | val y =>
    obtain ⟨e, st, r1⟩ := y
    have := key fuel 0 r none he e st r1 hl
    rw [hl] at h
    cases e <;> cases h <;> exact this

/-- **C108 (conversations).** Calls of `ReadMsg` and `EnableZlib`, as many as one likes: a program with types of its own sees, call for call,
what a program without them would see, with the messages of those types decoded by their methods. -/
theorem session (calls : List (Bytes × U)) (u : Methods U) (left : Codec → Msg → Bytes → Msg) (hleft : KeepsRaw left)
    (reg : Registry.Reg Bytes (Msg ⊕ U)) (hreg : Registers calls reg) (r : OReader (Msg ⊕ U) Z)
    (he : ∀ k, (r.env k).unmarshalErr = none ∧ (r.env k).msgHooks = [] ∧ (r.env k).unknownEnc = none) (os : List NmdcConn.MsgObs)
    (nr : NReader Z) (h : NmdcConn.MsgSession I left r.std os nr) (hsafe : ∀ o ∈ os, seen calls u r.dec o ≠ none) :
    OwnSession I (u.types left reg) r (os.filterMap (seen calls u r.dec)) { r with lines := nr.lines } := by
  have hcons : ∀ (d : Codec) (o : NmdcConn.MsgObs) (b : OwnObs U) (rest : List NmdcConn.MsgObs), seen calls u d o = some b →
      (o :: rest).filterMap (seen calls u d) = b :: rest.filterMap (seen calls u d) := fun d o b rest h => List.filterMap_cons_some h
  generalize hn : r.std = n at h
  induction h generalizing r with
  | nil n => subst hn; exact .nil _
  | @msg n n1 n2 res rest hr t ih =>
    subst hn
    obtain ⟨b, hb⟩ := hr
    have hd : n1 = { r.std with lines := n1.lines } := readMsg_dec I left r.std (fun k => (he k).2.2) b (hb b (Nat.le_refl _))
    have hdec : n1.dec = r.dec := by rw [hd]; rfl
    have hnext := ih { r with lines := n1.lines } he (fun o ho => hsafe o (by simp [ho])) hd.symm
    have hread : ∀ fuel ≥ b, r.readMsg (u.types left reg) I fuel = withOwn calls u r (.val (res, n1)) := fun fuel hf => by
      rw [read_msg I calls u left hleft reg hreg r (fun k => ⟨(he k).1, (he k).2.1, .inl (he k).2.2⟩) fuel, hb fuel hf]
    have hs := hsafe _ (List.mem_cons_self ..)
    have hsame : ({ r with lines := n1.lines, dec := n1.dec } : OReader (Msg ⊕ U) Z) = { r with lines := n1.lines } := by rw [hdec]
    cases res with
    | error e =>
      rw [hcons r.dec _ (.msg (.error e)) _ rfl]
      exact .msg _ _ _ _ _ ⟨b, fun fuel hf => by rw [hread fuel hf]; simp only [withOwn, hsame]⟩ hnext
    | ok m =>
      cases m with
      | none =>
        rw [hcons r.dec _ (.msg (.ok none)) _ rfl]
        exact .msg _ _ _ _ _ ⟨b, fun fuel hf => by rw [hread fuel hf]; simp only [withOwn, hsame]⟩ hnext
      | some m =>
        simp only [seen] at hs
        cases hu : understood calls u r.dec m with
        | panic => rw [hu] at hs; exact absurd rfl hs
        | ok v =>
          rw [hcons r.dec _ (.msg (.ok (some v))) _ (by simp only [seen, hu])]
          exact .msg _ _ _ _ _ ⟨b, fun fuel hf => by rw [hread fuel hf]; simp only [withOwn, hu, hsame]⟩ hnext
        | err e =>
          rw [hcons r.dec _ (.msg (.error e)) _ (by simp only [seen, hu])]
          exact .msg _ _ _ _ _ ⟨b, fun fuel hf => by rw [hread fuel hf]; simp only [withOwn, hu, hsame]⟩ hnext
  | @zlib n lr n2 sched rest hz t ih =>
    subst hn
    rw [hcons r.dec _ (.zlib sched) _ rfl]
    exact .zlib _ lr _ _ _ hz (ih { r with lines := lr } he (fun o ho => hsafe o (by simp [ho])) rfl)

/-! ## Concrete cases -/

omit [HtmlEntities] in
/-- The assumption about failed decodings holds of the package's methods. -/
theorem left_keepsRaw [HtmlEntities] : KeepsRaw Msg.left := by
  intro dec m data t d h
  cases m with
  | raw t' d' => simp only [Msg.left, Msg.call] at h; first | (cases h; exact ⟨_, rfl⟩) | skip
  | _ => (unfold Msg.left at h; first | cases h | skip)

/-- A type `Ping` of the caller, that takes back what it was given, and refuses an empty text. -/
def ping : Methods Bytes where
  typ _ := b!"Ping"
  unmarshal
    | _, [], x => (.err (.other 5), x)
    | _, 33 :: _, x => (.panic, x)
    | _, data, _ => (.ok (), data.reverse)

def pingCalls : List (Bytes × Bytes) := [(b!"Ping", [])]

def pingReg : Registry.Reg Bytes (Msg ⊕ Bytes) :=
  match Registry.Reg.registerAll (Registry.nmdcInit.flatten.map Registry.nmdcCall ++ pingCalls.map fun c => (c.1, .inr c.2)) [] with
  | .ok r => r
  | _ => []

omit [HtmlEntities] in
theorem ping_registers : Registers pingCalls pingReg := by
  refine ⟨_, rfl, ?_⟩
  with_unfolding_all rfl

section
attribute [local instance] basicEntities

/-- `ReadMsg`: a `Ping` of the caller, a message of the package, one that nobody has registered, and the errors. -/
def got (x : Exec (Except Err (Option (Msg ⊕ Bytes)) × OReader (Msg ⊕ Bytes) Bool)) : Option (Except Err (Option (Msg ⊕ Bytes))) :=
  match x with
  | .val (x, _) => some x
  | _ => none

def reader0 (text : Bytes) : OReader (Msg ⊕ Bytes) Bool := Own.newOReader (chunks [text])

example : got ((reader0 b!"||$Ping 12|hi|").readMsg (ping.types Msg.left pingReg) toy 20) = some (.ok (some (.inr b!"21"))) := by
  with_unfolding_all rfl

example : got ((reader0 b!"$Ping|hi|").readMsg (ping.types Msg.left pingReg) toy 20) = some (.error (.other 5)) := by
  with_unfolding_all rfl

example : (reader0 b!"$Ping !|hi|").readMsg (ping.types Msg.left pingReg) toy 20 = .panic := by
  with_unfolding_all rfl

example : got ((reader0 b!"$Pong 12|").readMsg (ping.types Msg.left pingReg) toy 20) = some (.ok (some (.inl (.raw b!"Pong" b!"12")))) := by
  with_unfolding_all rfl

example : got ((reader0 b!"$Hello joe|").readMsg (ping.types Msg.left pingReg) toy 20) =
    some (.ok (some (.inl (.name .hello b!"joe")))) := by
  with_unfolding_all rfl

/-- `ReadMsgToAny`. -/
example : (match (reader0 b!"$Ping 12|").readMsgToAny (ping.types Msg.left pingReg) toy 20 [.inl (.name .hello []), .inr b!"x"] with
    | .val (res, arr, _) => some (res, arr)
    | _ => none) = some (.ok (some 1), [.inl (.name .hello []), .inr b!"21"]) := by
  with_unfolding_all rfl

end

end Verif.Props.NmdcOwnReader
