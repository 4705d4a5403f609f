import Verif.Nmdc.Reader
import Verif.Spec.NmdcLine
import Verif.Spec.Lines
import Verif.Lineproto.ReaderOps

/-!
# Lemmas about `nmdc.Reader`
-/

namespace Verif.Nmdc

open Verif.Go Verif.Lineproto Verif.Spec

theorem nameChar_iff : ∀ b : Byte, (if b = c!"/" || b = c!"-" || b = c!"_" || b = c!"." || b = c!":" then true
    else if b < c!"0" || b > c!"z" then false
    else if b ≥ c!"a" && b ≤ c!"z" then true
    else if b ≥ c!"A" && b ≤ c!"Z" then true
    else if b ≥ c!"0" && b ≤ c!"9" then true
    else false) = true ↔ NameChar b := by
  unfold NameChar
  apply forall_byte; decide +kernel

theorem cmdNameOk_iff (max : Int) (cmd : Bytes) : cmdNameOk max cmd = true ↔ CmdName max cmd := by
  have ha : isASCII cmd = true ↔ ∀ b ∈ cmd, NameChar b := by
    unfold isASCII
    rw [List.all_eq_true]
    exact ⟨fun h b hb => (nameChar_iff b).mp (h b hb), fun h b hb => (nameChar_iff b).mpr (h b hb)⟩
  unfold cmdNameOk CmdName
  rw [Bool.and_eq_true, Bool.and_eq_true, ha, and_assoc]
  simp

theorem nameChar_space {b : Byte} (h : NameChar b) : b ≠ c!" " ∧ b ≠ 0 ∧ b ≠ c!"|" ∧ b ≠ c!"$" := by
  revert b
  unfold NameChar
  apply forall_byte; decide +kernel

theorem cmdName_clean {max : Int} {t : Bytes} (h : CmdName max t) : c!" " ∉ t ∧ (0 : Byte) ∉ t ∧ c!"|" ∉ t :=
  ⟨fun hm => (nameChar_space (h.2.2 _ hm)).1 rfl, fun hm => (nameChar_space (h.2.2 _ hm)).2.1 rfl,
    fun hm => (nameChar_space (h.2.2 _ hm)).2.2.1 rfl⟩

theorem splitCmd_args {t a : Bytes} (h : c!" " ∉ t) : splitCmd (t ++ c!" " :: a) = (t, a) := by
  unfold splitCmd
  rw [indexByte_append h]
  simp

theorem splitCmd_bare {t : Bytes} (h : c!" " ∉ t) : splitCmd t = (t, []) := by
  unfold splitCmd
  rw [indexByte_none.mpr h]

/-- Every non-empty line is something. -/
theorem lineIs_total {max : Int} {l : Bytes} (h : IsLine delim l) (hne : l ≠ [delim]) : ∃ v, LineIs max l v := by
  by_cases h0 : (0 : Byte) ∈ l
  · exact ⟨_, .nul l h0⟩
  · obtain ⟨body, hb, rfl⟩ := h
    cases body with
    | nil => simp at hne
    | cons b line =>
      by_cases hd : b = c!"$"
      · subst hd
        by_cases hs : c!" " ∈ line
        · obtain ⟨i, hi⟩ : ∃ i, indexByte line c!" " = some i := by
            cases hx : indexByte line c!" " with
            | none => exact absurd hs (indexByte_none.mp hx)
            | some i => exact ⟨i, rfl⟩
          obtain ⟨t, a, rfl, ht, _⟩ := indexByte_some hi
          by_cases hn : CmdName max t
          · have := LineIs.command (max := max) t a hn (by simp at h0; exact h0.2.1)
            exact ⟨_, by simpa [delim] using this⟩
          · have := LineIs.badName (max := max) t (c!" " :: a) ht hn (.inr rfl)
            exact ⟨_, by simpa [delim] using this⟩
        · by_cases hn : CmdName max line
          · have := LineIs.bare (max := max) line hn
            exact ⟨_, by simpa [delim] using this⟩
          · have := LineIs.badName (max := max) line [] hs hn (.inl rfl)
            exact ⟨_, by simpa [delim] using this⟩
      · exact ⟨_, .chat (b :: line) (by simp) (by simp [hd]) (by simp at h0 ⊢; exact ⟨h0.1, h0.2.1⟩)⟩

variable [HtmlEntities]

/-- A command line whose raw hooks accept it. -/
theorem round_command {env : Env} {left} {max : Int} {l typ args : Bytes} {st : St} (h : LineIs max l (.command typ args))
    (hh : runAll () (env.rawHooks.map fun h _ => h (some typ) args) = .accept) :
    round env left max (l, none) st =
      match targetCmd st typ args with
      | .error e => .ret (some e) st
      | .ok (out, st') => decodeInto env left l.dropLast args out st' := by
  have key : ∀ (rest : Bytes), (0 : Byte) ∉ rest → CmdName max typ → splitCmd (typ ++ rest) = (typ, args) →
      round env left max (b!"$" ++ typ ++ rest ++ b!"|", none) st =
      match targetCmd st typ args with
      | .error e => .ret (some e) st
      | .ok (out, st') => decodeInto env left (b!"$" ++ typ ++ rest ++ b!"|").dropLast args out st' := by
    intro rest h0 hn hsp
    have hd : (b!"$" ++ typ ++ rest ++ b!"|").dropLast = b!"$" ++ typ ++ rest := by
      rw [List.dropLast_concat]
    unfold round
    simp only
    rw [if_neg (by rw [List.getLast?_concat]; simp [delim]), if_neg (by simp [(cmdName_clean hn).2.1, h0]), hd, if_neg (by simp)]
    simp only [List.cons_append, List.nil_append, roundBody, if_true, hsp, hh, (cmdNameOk_iff max typ).mpr hn]
    rfl
  cases h with
  | command _ _ hn h0 =>
    have := key (b!" " ++ args) (by simp [h0]) hn (by simpa using splitCmd_args (cmdName_clean hn).1)
    simpa only [List.append_assoc] using this
  | bare _ hn =>
    have := key [] (by simp) hn (by simpa using splitCmd_bare (cmdName_clean hn).1)
    simpa only [List.append_nil] using this

/-- A chat line whose raw hooks accept it. -/
theorem round_chat {env : Env} {left} {max : Int} {l text : Bytes} {st : St} (h : LineIs max l (.chat text))
    (hh : runAll () (env.rawHooks.map fun h _ => h none text) = .accept) :
    round env left max (l, none) st =
      match targetChat st text with
      | .error e => .ret (some e) st
      | .ok (out, st') => decodeInto env left l.dropLast text out st' := by
  cases h with
  | chat _ hne hd h0 =>
    have hdl : (text ++ b!"|").dropLast = text := by rw [List.dropLast_concat]
    unfold round
    simp only
    rw [if_neg (by simp [delim]), if_neg (by simp [h0]), hdl, if_neg hne]
    cases text with
    | nil => simp at hne
    | cons b t =>
      have : b ≠ c!"$" := by simpa using hd
      simp only [roundBody, if_neg this, hh]
      rfl

/-- A violation, when there are no raw hooks. -/
theorem round_violation {env : Env} {left} {max : Int} {l : Bytes} {st : St} (h : LineIs max l .violation)
    (hl : IsLine delim l) (hh : env.rawHooks = []) :
    round env left max (l, none) st = .ret (some .protocolViolation) st := by
  obtain ⟨body, _, rfl⟩ := hl
  unfold round
  simp only
  rw [if_neg (by simp [delim])]
  by_cases h0 : (0 : Byte) ∈ body ++ [delim]
  · rw [if_pos h0]
  · rw [if_neg h0]
    generalize hl : body ++ [delim] = l at *
    cases h with
    | nul _ h => exact absurd h h0
    | badName t rest hs hn hr =>
      have hd : (b!"$" ++ t ++ rest ++ b!"|").dropLast = b!"$" ++ t ++ rest := by rw [List.dropLast_concat]
      rw [hd, if_neg (by simp)]
      have hsp : ∃ a, splitCmd (t ++ rest) = (t, a) := by
        rcases hr with rfl | hr
        · exact ⟨[], by simpa using splitCmd_bare hs⟩
        · cases rest with
          | nil => simp at hr
          | cons b a => simp at hr; subst hr; exact ⟨a, splitCmd_args hs⟩
      obtain ⟨a, hsp⟩ := hsp
      have hk : cmdNameOk max t = false := by
        cases hk : cmdNameOk max t with
        | false => rfl
        | true => exact absurd ((cmdNameOk_iff max t).mp hk) hn
      simp only [List.cons_append, List.nil_append, roundBody, if_true, hsp, hh, List.map_nil, runAll, hk]
      rfl

/-- A keep-alive whose callback does not fail. -/
theorem round_keepAlive {env : Env} {left} {max : Int} {st : St} (h : env.keepAlive = none) :
    round env left max ([delim], none) st = .again st := by
  unfold round
  simp [h, delim]

theorem round_error {env : Env} {left} {max : Int} {st : St} {b : Bytes} {e : Err} :
    round env left max (b, some e) st = .ret (some e) st := rfl

/-- The loop of `readMsgTo` on given results of `ReadLine`, of which it takes exactly these; `none` is a panic. -/
inductive Consumes (env : Nat → Env) (left : Codec → Msg → Bytes → Msg) (max : Int) :
    Nat → List (Bytes × Option Err) → St → Option (Option Err × St) → Prop where
  | last (k : Nat) (res : Bytes × Option Err) (st : St) (e : Option Err) (st' : St)
      (h : round (env k) left max res st = .ret e st') : Consumes env left max k [res] st (some (e, st'))
  | panic (k : Nat) (res : Bytes × Option Err) (st : St)
      (h : round (env k) left max res st = .panic) : Consumes env left max k [res] st none
  | more (k : Nat) (res : Bytes × Option Err) (rest : List (Bytes × Option Err)) (st st' : St) (o : Option (Option Err × St))
      (h : round (env k) left max res st = .again st') (t : Consumes env left max (k + 1) rest st' o) :
      Consumes env left max k (res :: rest) st o

variable {Z : Type} (I : Inflater Z)

/-- The result of the loop. -/
def loopResult (r : NReader Z) (lr : Reader Z) : Option (Option Err × St) → Exec (Option Err × St × NReader Z)
  | some (e, st') => .val (e, st', { r with lines := lr, dec := st'.rdec })
  | none => .panic

/-- The loop ends with this result for all sufficiently large fuel. -/
theorem loop_of_consumes {left} {max : Int} {env : Nat → Env} {k : Nat} {rs : List (Bytes × Option Err)} {st : St}
    {o : Option (Option Err × St)} (h : Consumes env left max k rs st o) :
    ∀ (r : NReader Z) (lr : Reader Z), r.env = env → r.maxCmdName = max → Reader.Runs I r.lines (rs.map Obs.line) lr →
      ∃ n, ∀ fuel ≥ n, NReader.loop I left fuel k r st = loopResult r lr o := by
  induction h with
  | last k res st e st' h =>
    intro r lr he hm hr
    cases hr with
    | line _ r1 _ _ _ hl ht =>
      cases ht
      obtain ⟨n, hn⟩ := hl
      refine ⟨n + 1, fun fuel hf => ?_⟩
      obtain ⟨f, rfl⟩ : ∃ f, fuel = f + 1 := ⟨fuel - 1, by omega⟩
      rw [NReader.loop, hn f (by omega)]
      have h' : round (r.env k) left r.maxCmdName res st = .ret e st' := by rw [he, hm]; exact h
      simp only [h', loopResult]
  | panic k res st h =>
    intro r lr he hm hr
    cases hr with
    | line _ r1 _ _ _ hl ht =>
      obtain ⟨n, hn⟩ := hl
      refine ⟨n + 1, fun fuel hf => ?_⟩
      obtain ⟨f, rfl⟩ : ∃ f, fuel = f + 1 := ⟨fuel - 1, by omega⟩
      rw [NReader.loop, hn f (by omega)]
      have h' : round (r.env k) left r.maxCmdName res st = .panic := by rw [he, hm]; exact h
      simp only [h', loopResult]
  | more k res rest st st' o h t ih =>
    intro r lr he hm hr
    cases hr with
    | line _ r1 _ _ _ hl ht =>
      obtain ⟨n, hn⟩ := hl
      obtain ⟨n2, hn2⟩ := ih { r with lines := r1, dec := st'.rdec } lr he hm ht
      refine ⟨n + n2 + 1, fun fuel hf => ?_⟩
      obtain ⟨f, rfl⟩ : ∃ f, fuel = f + 1 := ⟨fuel - 1, by omega⟩
      rw [NReader.loop, hn f (by omega)]
      have h' : round (r.env k) left r.maxCmdName res st = .again st' := by rw [he, hm]; exact h
      simp only [h']
      rw [hn2 f (by omega)]
      cases o with
      | none => rfl
      | some p => rfl

/-- Keep-alives in front change nothing. -/
theorem consumes_keepAlives {env : Nat → Env} {left} {max : Int} {st : St} {o : Option (Option Err × St)}
    (hk : ∀ k, (env k).keepAlive = none)
    (n k : Nat) {rs : List (Bytes × Option Err)} (h : Consumes env left max (k + n) rs st o) :
    Consumes env left max k (List.replicate n ([delim], none) ++ rs) st o := by
  induction n generalizing k with
  | zero => simpa using h
  | succ n ih =>
    refine .more k _ _ st st _ (round_keepAlive (hk k)) ?_
    exact ih (k + 1) (by rwa [Nat.add_right_comm, Nat.add_assoc])

end Verif.Nmdc
