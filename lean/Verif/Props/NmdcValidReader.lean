import Verif.Props.NmdcValidLeft
import Verif.Nmdc.Reader

/-! # What a reader hands out is UTF-8 -/

namespace Verif.Props.NmdcValid

open Verif.Go Verif.Lineproto Verif.Nmdc Verif.Spec

/-- The messages of a call. -/
structure StValid (st : St) : Prop where
  cur : ∀ m, st.cur = some m → Valid m
  arr : ∀ m ∈ st.arr, Valid m

/-- All outcomes of a round are good. -/
def RoundValid : Round → Prop
  | .ret _ st => StValid st
  | .again st => StValid st
  | .panic => True

theorem put_valid {st : St} {m : Msg} (h : StValid st) (hm : Valid m) : StValid (st.put m) := by
  unfold St.put
  split
  · rename_i ha
    exact ⟨fun x hx => by cases hx; exact hm, h.arr⟩
  · split
    · refine ⟨h.cur, fun x hx => ?_⟩
      rcases List.mem_or_eq_of_mem_set hx with hx | rfl
      · exact h.arr x hx
      · exact hm
    · exact h

theorem pick_mem {p : Msg → Bool} {l : List Msg} {k i : Nat} {m : Msg} (h : pick p l k = some (i, m)) : m ∈ l := by
  induction l generalizing k with
  | nil => cases h
  | cons x xs ih =>
    unfold pick at h
    split at h
    · cases h; simp
    · exact List.mem_cons_of_mem _ (ih h)

theorem targetCmd_valid {st st' : St} {typ args : Bytes} {m : Msg} (h : StValid st) (ht : targetCmd st typ args = .ok (m, st')) :
    Valid m ∧ StValid st' := by
  unfold targetCmd at ht
  dsimp only at ht
  split at ht
  · cases ht
  · rename_i s heq
    cases ht
    refine ⟨valid_new _, fun x hx => by cases hx; exact valid_new _, ?_⟩
    split at heq
    · injection heq with heq
      injection heq with h1 h2
      subst h2; exact h.arr
    · split at heq
      · cases heq
      · cases heq
  · rename_i o s heq
    have key : Valid o ∧ StValid s := by
      split at heq
      · rename_i hc
        injection heq with heq
        injection heq with h1 h2
        subst h2
        exact ⟨h.cur _ h1, h⟩
      · split at heq
        · rename_i hp
          cases heq
          exact ⟨h.arr _ (pick_mem hp), h.cur, h.arr⟩
        · cases heq
    split at ht
    · cases ht
    · split at ht
      · cases ht
      · cases ht; exact key

theorem targetChat_valid {st st' : St} {args : Bytes} {m : Msg} (h : StValid st) (ht : targetChat st args = .ok (m, st')) :
    Valid m ∧ StValid st' := by
  have hnew : Valid (.chat {}) := by
    intro t ht
    have : t = [] := by simpa [texts] using ht
    rw [this]; exact nil_utf8
  unfold targetChat at ht
  dsimp only at ht
  split at ht
  · cases ht
  · rename_i s heq
    cases ht
    refine ⟨hnew, fun x hx => by cases hx; exact hnew, ?_⟩
    split at heq
    · injection heq with heq
      injection heq with h1 h2
      subst h2; exact h.arr
    · split at heq
      · cases heq
      · cases heq
  · rename_i o s heq
    have key : Valid o ∧ StValid s := by
      split at heq
      · rename_i hc
        injection heq with heq
        injection heq with h1 h2
        subst h2
        exact ⟨h.cur _ h1, h⟩
      · split at heq
        · rename_i hp
          cases heq
          exact ⟨h.arr _ (pick_mem hp), h.cur, h.arr⟩
        · cases heq
    split at ht
    · cases ht; exact key
    · cases ht

variable [HtmlEntities]

theorem try_valid {dec : Codec} {out m : Msg} {args : Bytes} {st st' : St} {e : Option Err} (h : StValid st) (ho : Valid out)
    (ht : tryUnmarshal Msg.left dec out args st = some (e, m, st')) : Valid m ∧ StValid st' := by
  unfold tryUnmarshal at ht
  split at ht
  · rename_i hu
    cases ht
    exact ⟨valid_read ho hu, put_valid h (valid_read ho hu)⟩
  · cases ht
    exact ⟨valid_left _ _ _ ho, put_valid h (valid_left _ _ _ ho)⟩
  · cases ht

theorem decode_valid (env : Env) (origLine args : Bytes) {out : Msg} {st : St} (h : StValid st) (ho : Valid out) :
    RoundValid (decodeInto env Msg.left origLine args out st) := by
  unfold decodeInto
  split
  · trivial
  · rename_i err out1 st1 h1
    obtain ⟨ho1, hs1⟩ := try_valid h ho h1
    have key : ∀ r, fallback env Msg.left args err out1 st1 = some r → match r with
        | .error (_, s) => StValid s
        | .ok (_, m, s) => Valid m ∧ StValid s := by
      intro r hr
      unfold fallback at hr
      split at hr
      · split at hr
        · cases hr; exact ⟨hs1.cur, hs1.arr⟩
        · obtain ⟨⟨e, m, s⟩, h2, rfl⟩ := Option.map_eq_some_iff.1 hr
          exact try_valid (by exact ⟨hs1.cur, hs1.arr⟩) ho1 h2
        · obtain ⟨⟨e, m, s⟩, h2, rfl⟩ := Option.map_eq_some_iff.1 hr
          exact try_valid (by exact ⟨hs1.cur, hs1.arr⟩) ho1 h2
      · cases hr; exact ⟨ho1, hs1⟩
    split
    · trivial
    · rename_i h2; exact key _ h2
    · rename_i h2
      have hs := (key _ h2).2
      unfold afterDecode
      repeat' (first | exact hs | split)

theorem round_valid (env : Env) (max : Int) (res : Bytes × Option Err) {st : St} (h : StValid st) :
    RoundValid (round env Msg.left max res st) := by
  unfold round
  split
  · exact h
  · split
    · exact h
    · split
      · exact h
      · split
        · split <;> exact h
        · unfold roundBody
          split
          · exact h
          · split
            · split
              split
              · exact h
              · exact h
              · split
                · split
                  · exact h
                  · rename_i ht
                    exact decode_valid _ _ _ (targetCmd_valid h ht).2 (targetCmd_valid h ht).1
                · exact h
            · split
              · exact h
              · exact h
              · split
                · exact h
                · rename_i ht
                  exact decode_valid _ _ _ (targetChat_valid h ht).2 (targetChat_valid h ht).1

variable {Z : Type} (I : Inflater Z)

theorem loop_valid (fuel : Nat) : ∀ (k : Nat) (r r' : NReader Z) (st st' : St) (e : Option Err), StValid st →
    NReader.loop I Msg.left fuel k r st = .val (e, st', r') → StValid st' := by
  induction fuel with
  | zero => intro k r r' st st' e _ h; cases h
  | succ n ih =>
    intro k r r' st st' e hs h
    unfold NReader.loop at h
    split at h
    · cases h
    · cases h
    · rename_i res lr _
      have hr := round_valid (r.env k) r.maxCmdName res hs
      split at h
      · rename_i he
        rw [he] at hr
        cases h; exact hr
      · rename_i he
        rw [he] at hr
        exact ih _ _ _ _ _ _ hr h
      · cases h

/-- **`ReadMsg`.**  Whatever arrives, in whatever pieces, with whatever text decoder, callbacks and hooks: if `ReadMsg` gives a message, its texts are UTF-8. -/
theorem read_msg {fuel : Nat} {r r' : NReader Z} {m : Msg} (h : r.readMsg I Msg.left fuel = .val (.ok (some m), r')) : Valid m := by
  unfold NReader.readMsg at h
  split at h
  · cases h
  · rename_i st r2 hl
    have h0 : StValid (r.start none []) := ⟨fun _ h => (by cases h), fun _ h => (by cases h)⟩
    have hs := loop_valid I _ _ _ _ _ _ _ h0 hl
    injection h with h
    injection h with h1 h2
    injection h1 with h1
    exact hs.cur m h1
  · cases h
  · cases h

/-- **`ReadMsgTo`.**  Texts of the caller's message that are UTF-8 stay so, with an error or without. -/
theorem read_msg_to {fuel : Nat} {r r' : NReader Z} {m m' : Msg} {e : Option Err} (hm : Valid m)
    (h : r.readMsgTo I Msg.left fuel (some m) = .val (e, some m', r')) : Valid m' := by
  have h0 : StValid (r.start (some m) []) := ⟨fun x h => (by cases h; exact hm), fun _ h => (by cases h)⟩
  unfold NReader.readMsgTo at h
  dsimp only at h
  split at h
  · rename_i hl
    have hs := loop_valid I _ _ _ _ _ _ _ h0 hl
    injection h with h
    injection h with h1 h2
    injection h2 with h2
    exact hs.cur m' h2
  · cases h
  · cases h

/-- **`ReadMsgToAny`.**  The same for all messages of the caller. -/
theorem read_msg_to_any {fuel : Nat} {r r' : NReader Z} {arr arr' : List Msg} {e : Except Err (Option Nat)} (hm : ∀ m ∈ arr, Valid m)
    (h : r.readMsgToAny I Msg.left fuel arr = .val (e, arr', r')) : ∀ m ∈ arr', Valid m := by
  have h0 : StValid (r.start none arr) := ⟨fun _ h => (by cases h), hm⟩
  unfold NReader.readMsgToAny at h
  split at h
  · cases h
  · split at h
    all_goals first
      | (rename_i hl
         have hs := loop_valid I _ _ _ _ _ _ _ h0 hl
         injection h with h
         injection h with h1 h2
         injection h2 with h2
         rw [← h2]; exact hs.arr)
      | cases h

/-! ## Cases -/

/-- A message with Cyrillic letters in Windows-1251 has texts that are UTF-8. -/
example : Valid (.chat { name := b!"Иван", text := b!"да" }) ∧
    Msg.unmarshal (CodePages.dec windows1251) (.chat {}) (b!"<" ++ [0xC8, 0xE2, 0xE0, 0xED] ++ b!"> " ++ [0xE4, 0xE0]) =
      .ok (.chat { name := b!"Иван", text := b!"да" }) := by
  have h : Msg.unmarshal (CodePages.dec windows1251) (.chat {}) (b!"<" ++ [0xC8, 0xE2, 0xE0, 0xED] ++ b!"> " ++ [0xE4, 0xE0]) =
      .ok (.chat { name := b!"Иван", text := b!"да" }) := by with_unfolding_all rfl
  have h0 : Valid (.chat {}) := by
    intro t ht
    have : t = [] := by simpa [texts] using ht
    rw [this]; exact nil_utf8
  exact ⟨valid_read h0 h, h⟩

omit [HtmlEntities] in
theorem ff_not_utf8 : ¬ IsUtf8 [0xFF] := by
  rw [← validUtf8_iff]; decide

/-- **Finding.**  The path of a search result is checked but not decoded: with a code page the path that is handed out is in the page, not in UTF-8. -/
theorem path_not_decoded :
    ∃ m, Msg.unmarshal (CodePages.dec windows1251) (.sr {}) (b!"joe " ++ [0xFF] ++ b!"\x051 1/1\x05hub (a)") = .ok (.sr m) ∧
      m.path = [[0xFF]] ∧ ¬ IsUtf8 [0xFF] :=
  ⟨{ src := b!"joe", path := [[0xFF]], size := 1, freeSlots := 1, totalSlots := 1, hubName := b!"hub", hubAddress := b!"a" },
    by with_unfolding_all rfl, rfl, ff_not_utf8⟩

/-- **Finding.**  The tag of a user is not checked and not decoded: the names of client and version and the extra fields may be anything, and
`OnUnknownEncoding` is not asked. -/
theorem tag_not_checked :
    ∃ m, Msg.unmarshal none (.myINFO {}) (b!"$ALL joe <" ++ [0xFF] ++ b!" V:1,M:A,H:1/0/0,S:1>$ $\x01$$0$") = .ok (.myINFO m) ∧
      m.client.name = [0xFF] ∧ ¬ IsUtf8 [0xFF] :=
  ⟨_, by with_unfolding_all rfl, rfl, ff_not_utf8⟩

end Verif.Props.NmdcValid
