import Verif.Spec.NmdcOwn
import Verif.Nmdc.ReaderLemmas
import Verif.Props.Registry

/-!
# Lemmas about readers with messages of the caller's own types
-/

namespace Verif.Nmdc.Own

open Verif.Go Verif.Lineproto Verif.Spec

variable [HtmlEntities] {U : Type} {Z : Type}

/-- The registry makes values of the caller's types for the names in `calls`. -/
def Knows (calls : List (Bytes × U)) (reg : Registry.Reg Bytes (Msg ⊕ U)) : Prop :=
  ∀ typ, match calls.lookup typ with
    | some x => Nmdc.lookup typ = none ∧ Registry.newMessage typ reg = .user x
    | none => Registry.newMessage typ reg = .std (newMessage typ) ∨ (Registry.newMessage typ reg = .raw typ ∧ Nmdc.lookup typ = none)

/-- Rounds of the two readers that correspond. -/
def SameRound (calls : List (Bytes × U)) (u : Methods U) (d : Codec) (st0 : St (Msg ⊕ U)) (st0' : Nmdc.St) :
    Round (Msg ⊕ U) → Nmdc.Round → Prop
  | a, .panic => a = .panic
  | a, .again st' => st' = st0' ∧ a = .again st0
  | a, .ret (some e) st' => ∃ st, a = .ret (some e) st ∧ st.rdec = st'.rdec
  | a, .ret none st' => ∃ m, st'.cur = some m ∧ match understood calls u d m with
    | .ok v => ∃ st, a = .ret none st ∧ st.rdec = st'.rdec ∧ st.cur = some v
    | .err e => ∃ st, a = .ret (some e) st ∧ st.rdec = st'.rdec
    | .panic => a = .panic

omit [HtmlEntities] in
theorem lookup_raw {typ : Bytes} {t d : Bytes} {m : Msg} (h : lookup typ = some m) : m ≠ .raw t d := by
  intro hm; subst hm
  have := List.mem_of_find?_eq_some h
  simp [registered] at this

theorem unmarshal_raw {dec : Codec} {m m' : Msg} {data t d : Bytes} (h : m.unmarshal dec data = .ok m') (hm : m' = .raw t d) :
    ∃ d', m = .raw t d' := by
  cases m
  case raw t' d' =>
    simp only [Msg.unmarshal] at h
    cases h; cases hm; exact ⟨d', rfl⟩
  all_goals
    exfalso
    simp only [Msg.unmarshal] at h
    obtain ⟨_, _, h⟩ := Res.bind_eq_ok.mp h
    cases h; cases hm

omit [HtmlEntities] in
theorem runAll_nil {α : Type} (x : α) : runAll x [] = .accept := rfl

theorem try_std (u : Methods U) (left : Codec → Msg → Bytes → Msg) (reg : Registry.Reg Bytes (Msg ⊕ U)) (d : Codec) (m : Msg) (args : Bytes)
    (st : St (Msg ⊕ U)) : tryUnmarshal (u.types left reg) d (.inl m) args st =
      match m.unmarshal d args with
      | .ok m' => some (none, .inl m', st.put (.inl m'))
      | .err e => some (some e, .inl (left d m args), st.put (.inl (left d m args)))
      | .panic => none := by
  unfold tryUnmarshal
  simp only [Methods.types]
  cases m.unmarshal d args <;> rfl

theorem try_own (u : Methods U) (left : Codec → Msg → Bytes → Msg) (reg : Registry.Reg Bytes (Msg ⊕ U)) (d : Codec) (x : U) (args : Bytes)
    (st : St (Msg ⊕ U)) : tryUnmarshal (u.types left reg) d (.inr x) args st =
      match u.unmarshal d args x with
      | (.ok _, x') => some (none, .inr x', st.put (.inr x'))
      | (.err e, x') => some (some e, .inr x', st.put (.inr x'))
      | (.panic, _) => none := by
  have h : (u.types left reg).unmarshal d args (.inr x) = ((u.unmarshal d args x).1, .inr (u.unmarshal d args x).2) := rfl
  unfold tryUnmarshal
  rw [h]
  obtain ⟨res, x'⟩ := u.unmarshal d args x
  cases res <;> rfl

/-- Decoding into a message of the package. -/
theorem decode_std (calls : List (Bytes × U)) (u : Methods U) (left : Codec → Msg → Bytes → Msg) (reg : Registry.Reg Bytes (Msg ⊕ U))
    (env : Env (Msg ⊕ U)) (he : env.unmarshalErr = none) (hm : env.msgHooks = []) (orig args : Bytes) (d : Codec) (m : Msg)
    (hleft : KeepsRaw left) (st0 : St (Msg ⊕ U)) (st0' : Nmdc.St) (hraw : ∀ t d, m = .raw t d → calls.lookup t = none) (dec : Codec) :
    SameRound calls u dec st0 st0'
      (decodeInto (u.types left reg) env orig args (.inl m) ⟨d, d, some (.inl m), [], none⟩)
      (Nmdc.decodeInto env.std left orig args m ⟨d, d, some m, [], none⟩) := by
  have hund : ∀ (e : Codec) (a : Bytes) (x m' : Msg), (∀ t d, x = .raw t d → calls.lookup t = none) → x.unmarshal e a = .ok m' →
      understood calls u dec m' = .ok (.inl m') := by
    intro e a x m' hx h
    cases hk : m' with
    | raw t d =>
      obtain ⟨d', hd⟩ := unmarshal_raw h hk
      simp only [understood, hx t d' hd]
    | _ => rfl
  have hsecond : ∀ (e : Codec) (a : Bytes) (m' : Msg), (left d m args).unmarshal e a = .ok m' → understood calls u dec m' = .ok (.inl m') :=
    fun e a m' h => hund e a (left d m args) m' (fun t d' h' => by
      obtain ⟨d'', h''⟩ := hleft _ _ _ _ _ h'
      exact hraw t d'' h'') h
  unfold decodeInto Nmdc.decodeInto
  simp only [try_std, Nmdc.tryUnmarshal]
  cases hu : m.unmarshal d args with
  | panic => simp [SameRound]
  | ok m' =>
    simp only [fallback, Nmdc.fallback, afterDecode, Nmdc.afterDecode, St.put, Nmdc.St.put, Env.std, hm, runAll_nil]
    cases env.unknownEnc <;> simp [SameRound, hund d args m m' hraw hu]
  | err e =>
    simp only [fallback, Nmdc.fallback, afterDecode, Nmdc.afterDecode, St.put, Nmdc.St.put, Env.std, hm, runAll_nil, he]
    cases env.unknownEnc with
    | none => simp [SameRound]
    | some f =>
      cases e
      case unknownEncoding text =>
        simp only
        cases f text with
        | error e => simp [SameRound]
        | ok c =>
          cases c with
          | none =>
            simp only [try_std, Nmdc.tryUnmarshal]
            cases hu2 : (left d m args).unmarshal none (mapRunes args) with
            | panic => simp [SameRound]
            | ok m' => simp [SameRound, hsecond _ _ m' hu2, St.put, Nmdc.St.put]
            | err e => simp [SameRound, St.put, Nmdc.St.put]
          | some c =>
            simp only [try_std, Nmdc.tryUnmarshal]
            cases hu2 : (left d m args).unmarshal (some c) args with
            | panic => simp [SameRound]
            | ok m' => simp [SameRound, hsecond _ _ m' hu2, St.put, Nmdc.St.put]
            | err e => simp [SameRound, St.put, Nmdc.St.put]
      all_goals simp [SameRound]

/-- Decoding into a message of the caller. -/
theorem decode_own (calls : List (Bytes × U)) (u : Methods U) (left : Codec → Msg → Bytes → Msg) (reg : Registry.Reg Bytes (Msg ⊕ U))
    (env : Env (Msg ⊕ U)) (he : env.unmarshalErr = none) (hm : env.msgHooks = []) (hask : NoAsk u env) (orig args : Bytes) (d : Codec)
    (x : U) (st0 : St (Msg ⊕ U)) (st0' : Nmdc.St) (typ : Bytes) (hx : calls.lookup typ = some x) :
    SameRound calls u d st0 st0'
      (decodeInto (u.types left reg) env orig args (.inr x) ⟨d, d, some (.inr x), [], none⟩)
      (Nmdc.decodeInto env.std left orig args (.raw typ []) ⟨d, d, some (.raw typ []), [], none⟩) := by
  have hstd : Nmdc.decodeInto env.std left orig args (.raw typ []) ⟨d, d, some (.raw typ []), [], none⟩ =
      .ret none ⟨d, d, some (.raw typ args), [], none⟩ := by
    unfold Nmdc.decodeInto Nmdc.tryUnmarshal
    simp only [Msg.unmarshal, Nmdc.fallback, Nmdc.afterDecode, Nmdc.St.put, Env.std, runAll_nil]
    cases env.unknownEnc <;> rfl
  rw [hstd]
  refine ⟨_, rfl, ?_⟩
  simp only [understood, hx]
  unfold decodeInto
  simp only [try_own]
  cases hu : u.unmarshal d args x with
  | mk res x' =>
    cases res with
    | panic => simp
    | ok _ =>
      simp only [fallback, afterDecode, St.put, hm, runAll_nil]
      cases env.unknownEnc <;> simp
    | err e =>
      simp only [fallback, afterDecode, St.put, hm, runAll_nil, he]
      rcases hask with h | h
      · simp [h]
      · cases env.unknownEnc with
        | none => simp
        | some f =>
          cases e
          case unknownEncoding text => exact absurd (by rw [hu]) (h d args x text)
          all_goals simp

/-- One line. -/
theorem round_same (calls : List (Bytes × U)) (u : Methods U) (left : Codec → Msg → Bytes → Msg) (hleft : KeepsRaw left)
    (reg : Registry.Reg Bytes (Msg ⊕ U)) (hreg : Knows calls reg) (env : Env (Msg ⊕ U)) (he : env.unmarshalErr = none)
    (hm : env.msgHooks = []) (hask : NoAsk u env) (max : Int) (res : Bytes × Option Err) (d : Codec) :
    SameRound calls u d ⟨d, d, none, [], none⟩ ⟨d, d, none, [], none⟩
      (round (u.types left reg) env max res ⟨d, d, none, [], none⟩)
      (Nmdc.round env.std left max res ⟨d, d, none, [], none⟩) := by
  obtain ⟨l, e⟩ := res
  cases e with
  | some e => simp [round, Nmdc.round, SameRound]
  | none =>
    simp only [round, Nmdc.round]
    split
    · simp [SameRound]
    split
    · simp [SameRound]
    split
    · simp only [Env.std]
      cases env.keepAlive <;> simp [SameRound]
    cases l.dropLast with
    | nil => simp [roundBody, Nmdc.roundBody, SameRound]
    | cons b line =>
      simp only [roundBody, Nmdc.roundBody]
      have hrh : env.std.rawHooks = env.rawHooks := rfl
      rw [hrh]
      by_cases hb : b = c!"$"
      · rw [if_pos hb, if_pos hb]
        cases hs : splitCmd line with
        | mk cmd args =>
          simp only
          cases runAll () (env.rawHooks.map fun h _ => h (some cmd) args) with
          | fail e => simp [SameRound]
          | drop => simp [SameRound]
          | accept =>
            simp only
            by_cases hok : cmdNameOk max cmd = true
            · rw [if_pos hok, if_pos hok]
              simp only [targetCmd, Nmdc.targetCmd]
              have hk := hreg cmd
              cases hl : calls.lookup cmd with
              | some x =>
                rw [hl] at hk
                have h1 : newMessage cmd = .raw cmd [] := by simp [newMessage, hk.1]
                have h2 : (u.types left reg).new cmd = .inr x := by simp [Methods.types, hk.2]
                rw [h1, h2]
                exact decode_own calls u left reg env he hm hask (b :: line) args d x _ _ cmd hl
              | none =>
                rw [hl] at hk
                have h2 : (u.types left reg).new cmd = .inl (newMessage cmd) := by
                  rcases hk with h | ⟨h, h'⟩
                  · simp [Methods.types, h]
                  · simp [Methods.types, h, newMessage, h']
                rw [h2]
                exact decode_std calls u left reg env he hm (b :: line) args d (newMessage cmd) hleft _ _ (fun t d' h => by
                  unfold newMessage at h
                  cases hlk : lookup cmd with
                  | some m => rw [hlk] at h; exact absurd h (lookup_raw hlk)
                  | none => rw [hlk] at h; cases h; exact hl) d
            · rw [if_neg hok, if_neg hok]
              simp [SameRound]
      · rw [if_neg hb, if_neg hb]
        cases runAll () (env.rawHooks.map fun h _ => h none (b :: line)) with
        | fail e => simp [SameRound]
        | drop => simp [SameRound]
        | accept =>
          simp only [targetChat, Nmdc.targetChat]
          exact decode_std calls u left reg env he hm (b :: line) (b :: line) d (.chat {}) hleft _ _ (fun t d' h => by cases h) d

theorem loop_same (calls : List (Bytes × U)) (u : Methods U) (I : Inflater Z) (left : Codec → Msg → Bytes → Msg) (hleft : KeepsRaw left)
    (reg : Registry.Reg Bytes (Msg ⊕ U)) (hreg : Knows calls reg) (fuel k : Nat) (r : OReader (Msg ⊕ U) Z)
    (he : ∀ k, (r.env k).unmarshalErr = none ∧ (r.env k).msgHooks = [] ∧ NoAsk u (r.env k)) :
    (match OReader.loop (u.types left reg) I fuel k r (r.start none []) with
      | .val (some e, _, r') => .val (.error e, r')
      | .val (none, st, r') => .val (.ok st.cur, r')
      | .panic => .panic
      | .timeout => .timeout : Exec (Except Err (Option (Msg ⊕ U)) × OReader (Msg ⊕ U) Z)) =
    withOwn calls u r (match NReader.loop I left fuel k r.std (r.std.start none []) with
      | .val (some e, _, r') => .val (.error e, r')
      | .val (none, st, r') => .val (.ok st.cur, r')
      | .panic => .panic
      | .timeout => .timeout) := by
  induction fuel generalizing k r with
  | zero => rfl
  | succ fuel ih =>
    simp only [OReader.loop, NReader.loop]
    have hl : r.std.lines = r.lines := rfl
    rw [hl]
    cases r.lines.readLine I fuel with
    | panic => rfl
    | timeout => rfl
    | val y =>
      obtain ⟨res, lr⟩ := y
      have hs := round_same calls u left hleft reg hreg (r.env k) (he k).1 (he k).2.1 (he k).2.2 r.maxCmdName res r.dec
      have h1 : r.start none [] = ⟨r.dec, r.dec, none, [], none⟩ := rfl
      have h2 : r.std.start none [] = ⟨r.dec, r.dec, none, [], none⟩ := rfl
      have h3 : r.std.env k = (r.env k).std := rfl
      have h4 : r.std.maxCmdName = r.maxCmdName := rfl
      rw [h1, h2, h3, h4]
      simp only
      generalize round (u.types left reg) (r.env k) r.maxCmdName res ⟨r.dec, r.dec, none, [], none⟩ = a at hs ⊢
      generalize Nmdc.round (r.env k).std left r.maxCmdName res ⟨r.dec, r.dec, none, [], none⟩ = b at hs ⊢
      cases b with
      | panic => simp only [SameRound] at hs; subst hs; rfl
      | again st' =>
        simp only [SameRound] at hs
        obtain ⟨rfl, rfl⟩ := hs
        simp only
        have := ih (k + 1) { r with lines := lr } he
        exact this
      | ret e st' =>
        cases e with
        | some e =>
          simp only [SameRound] at hs
          obtain ⟨st, rfl, h⟩ := hs
          simp only [withOwn, h]
        | none =>
          simp only [SameRound] at hs
          obtain ⟨m, hm, hs⟩ := hs
          simp only [hm, withOwn]
          cases hu : understood calls u r.dec m with
          | ok v =>
            rw [hu] at hs
            obtain ⟨st, rfl, h, h'⟩ := hs
            simp only [h, h']
          | err e =>
            rw [hu] at hs
            obtain ⟨st, rfl, h⟩ := hs
            simp only [h]
          | panic =>
            rw [hu] at hs
            subst hs; rfl

omit [HtmlEntities] in
/-- After the calls of `RegisterMessage` of a program the registry knows its types. -/
theorem knows_of (r0 reg : Registry.Reg Bytes (Msg ⊕ U))
    (h0 : Registry.Reg.registerAll (Registry.nmdcInit.flatten.map Registry.nmdcCall) [] = .ok r0) (calls : List (Bytes × U))
    (h : r0.registerAll (calls.map fun c => (c.1, .inr c.2)) = .ok reg) : Knows calls reg := by
  have hut := Props.Registry.user_types r0 h0 calls
  have hc : (calls.map (·.1)).Nodup ∧ ∀ c ∈ calls, Nmdc.isRegistered c.1 = false := by
    apply Classical.byContradiction
    intro hn
    rw [hut.1.mpr hn] at h
    cases h
  intro typ
  obtain ⟨h1, h2⟩ := hut.2 reg h typ
  cases hl : calls.lookup typ with
  | some x =>
    have hmem : (typ, x) ∈ calls := by
      obtain ⟨l1, l2, he, _⟩ := List.lookup_eq_some_iff.mp hl
      rw [he]; simp
    refine ⟨?_, h1 x hmem⟩
    have := hc.2 _ hmem
    simpa [Nmdc.isRegistered] using this
  | none =>
    have hmem : typ ∉ calls.map (·.1) := by
      intro hm
      obtain ⟨c, hc1, hc2⟩ := List.mem_map.mp hm
      have := List.lookup_eq_none_iff.mp hl c hc1
      simp [hc2] at this
    have h3 := h2 hmem
    simp only
    by_cases hr : Nmdc.isRegistered typ = true
    · rw [if_pos hr] at h3; exact .inl h3
    · rw [if_neg hr] at h3
      exact .inr ⟨h3, by simpa [Nmdc.isRegistered] using hr⟩

end Verif.Nmdc.Own
