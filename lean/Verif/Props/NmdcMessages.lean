import Verif.Nmdc.PanicLemmas
import Verif.Nmdc.NumLemmas
import Verif.Nmdc.SimpleLemmas
import Verif.Nmdc.SearchLemmas
import Verif.Props.Identifiers
import Verif.Spec.Base32

/-!
# All NMDC messages: registry (C32), panics (C30), reuse (C38), one message is one line (C16)
-/

namespace Verif.Props.NmdcMessages

open Verif.Go Verif.Nmdc Verif.Tiger

attribute [local instance] basicEntities

/-! ## The registry -/

/-- No type is registered twice: `RegisterMessage` does not panic in the `init` functions. -/
theorem registered_nodup : (registered.map Msg.typ).Nodup := by decide +kernel

/-- A new message has the asked type. -/
theorem newMessage_typ (t : Bytes) : (newMessage t).typ = t := by
  unfold newMessage lookup
  cases h : registered.find? (·.typ = t) with
  | none => rfl
  | some m => simpa using List.find?_some h

/-- Every message that is not raw is of a registered type, and `NewMessage` of its type gives the empty message of that
very type. -/
theorem newMessage_registered {m : Msg} (h : m.isRaw = false) : newMessage m.typ = m.fresh ∧ isRegistered m.typ = true := by
  cases m <;> first | (constructor <;> rfl) | (rename_i k _; cases k <;> constructor <;> rfl) |
    (rename_i k; cases k <;> constructor <;> rfl) | (simp [Msg.isRaw] at h)

/-- Of a name that is not registered, a raw message. -/
theorem newMessage_raw {t : Bytes} (h : isRegistered t = false) : newMessage t = .raw t [] := by
  unfold isRegistered at h
  unfold newMessage
  rw [Option.isSome_eq_false_iff, Option.isNone_iff_eq_none] at h
  rw [h]; rfl

/-- Decoding never changes the type of a message. -/
theorem unmarshal_typ [HtmlEntities] {dec : Codec} {m r : Msg} {data : Bytes} (h : m.unmarshal dec data = .ok r) :
    r.typ = m.typ ∧ r.fresh = m.fresh := by
  cases m <;> simp only [Msg.unmarshal] at h
  all_goals first
    | (obtain ⟨x, -, hx⟩ := Res.bind_eq_ok.mp h; cases hx; exact ⟨rfl, rfl⟩)
    | (cases h; exact ⟨rfl, rfl⟩)

example : (newMessage b!"Hello").unmarshal none b!"joe" = .ok (.name .hello b!"joe") := by decide +kernel

/-! ## C30 -/

theorem splitMax_suffix {s : Bytes} {sep : Byte} {n : Nat} {l : List Bytes} {x : Bytes} (h : splitMax s sep n = l ++ [x]) :
    x <:+ s := by
  induction n generalizing s l with
  | zero => simp [splitMax] at h
  | succ n ih =>
    cases n with
    | zero =>
      cases l with
      | nil => simp [splitMax] at h; simp [h]
      | cons a l => simp [splitMax] at h
    | succ n =>
      unfold splitMax at h
      split at h
      · cases l with
        | nil => simp at h; simp [h]
        | cons a l => simp at h
      · cases l with
        | nil =>
          simp only [List.nil_append, List.cons.injEq] at h
          have : splitMax (List.drop (_ + 1) s) sep (n + 1) = [] := h.2
          cases n <;> simp [splitMax] at this
          split at this <;> simp at this
        | cons a l =>
          simp only [List.cons_append, List.cons.injEq] at h
          exact (ih h.2).trans (List.drop_suffix _ _)

theorem search_panic [HtmlEntities] {dec : Codec} {m : Search} {data : Bytes} (h : m.unmarshal dec data = .panic) :
    ∃ a hash, data = a ++ b!"TTH:" ++ hash ∧
      Hash.unmarshalBase32 (if hash.getLast? = some c!"$" then hash.dropLast else hash) = .panic := by
  have target : ∀ (m : Search) (typ : Nat) (f : Bytes), Search.target dec m typ f = .panic → ∃ hash, f = b!"TTH:" ++ hash ∧
      Hash.unmarshalBase32 (if hash.getLast? = some c!"$" then hash.dropLast else hash) = .panic := by
    intro m typ f hf
    unfold Search.target at hf
    split at hf
    · split at hf
      · rename_i hp
        obtain ⟨hash, rfl⟩ := hasPrefix_iff.mp hp
        rw [show sliceFrom (b!"TTH:" ++ hash) 4 = .ok hash from sliceFrom_append b!"TTH:" hash] at hf
        refine ⟨hash, rfl, ?_⟩
        simp only [Res.ok_bind] at hf
        generalize Hash.unmarshalBase32 (if hash.getLast? = some c!"$" then hash.dropLast else hash) = r at hf
        cases r <;> simp_all
      · cases hf
    · exact absurd hf (Res.bind_ne_panic (str_unmarshal_ne_panic _ _) (fun _ _ => by simp))
  have str : ∀ (m : Search) (f : Bytes), Search.unmarshalString dec m f = .panic → ∃ a hash, f = a ++ b!"TTH:" ++ hash ∧
      Hash.unmarshalBase32 (if hash.getLast? = some c!"$" then hash.dropLast else hash) = .panic := by
    intro m f hf
    unfold Search.unmarshalString at hf
    split at hf
    · rename_i f0 f1 f2 f3 f4 hs
      have hsuf : f4 <:+ f := splitMax_suffix (l := [f0, f1, f2, f3]) hs
      by_cases ht : ∃ typ, Search.target dec m typ f4 = .panic
      · obtain ⟨typ, ht⟩ := ht
        obtain ⟨hash, rfl, hh⟩ := target _ _ _ ht
        obtain ⟨a, rfl⟩ := hsuf
        exact ⟨a, hash, by simp, hh⟩
      · refine absurd hf ?_
        have hb : ∀ x, boolFlag x ≠ .panic := by intro x; unfold boolFlag; repeat' split <;> simp
        have hsz : ∀ k x, Search.sizeField k x ≠ .panic := by
          intro k x; unfold Search.sizeField; repeat' np
        repeat' first | exact hb _ | exact hsz _ _ | exact (fun h => ht ⟨_, h⟩) | np
    · cases hf
  unfold Search.unmarshal at h
  split at h
  · cases h
  · rename_i i hi
    rw [sliceFrom_ok (indexByte_lt hi)] at h
    simp only [Res.ok_bind] at h
    have fin : ∀ m : Search, Search.unmarshalString dec m (data.drop (i + 1)) = .panic → ∃ a hash, data = a ++ b!"TTH:" ++ hash ∧
        Hash.unmarshalBase32 (if hash.getLast? = some c!"$" then hash.dropLast else hash) = .panic := by
      intro m hm
      obtain ⟨a, hash, he, hh⟩ := str m _ hm
      refine ⟨data.take (i + 1) ++ a, hash, ?_, hh⟩
      rw [List.append_assoc, List.append_assoc, ← List.append_assoc a, ← he, List.take_append_drop]
    split at h
    · rename_i hp
      by_cases hx : ∃ m, Search.unmarshalString dec m (data.drop (i + 1)) = .panic
      · exact fin _ hx.choose_spec
      · refine absurd h ?_
        repeat' first | exact (fun h => hx ⟨_, h⟩) | np
    · exact fin _ h

/-- The only decoder that can panic is that of a search, and only on a line with `TTH:` and at least forty more bytes that
start, line ends aside, with forty characters of the base32 alphabet. -/
theorem decoders_never_panic_partial [HtmlEntities] {dec : Codec} {m : Msg} {data : Bytes}
    (h : m.typ ≠ b!"Search" ∨ m.isRaw = true ∨ ∀ a hash, data = a ++ b!"TTH:" ++ hash →
      ¬ (40 ≤ (hash.filter (fun c => c ≠ c!"\r" ∧ c ≠ c!"\n")).length ∧
        ∀ c ∈ (hash.filter (fun c => c ≠ c!"\r" ∧ c ≠ c!"\n")).take 40, c ∈ Spec.Base32.alphabet)) :
    m.unmarshal dec data ≠ .panic := by
  cases m <;> simp only [Msg.unmarshal] <;> (try refine Res.bind_ne_panic ?_ (fun _ _ => by simp))
  all_goals try first
    | exact chat_ne _ _ _ | exact priv_ne _ _ _ | exact mcTo_ne _ _ _ | exact userCommand_ne _ _ _ | exact connectToMe_ne _ _ _
    | exact revConnectToMe_ne _ _ _ | exact errMsg_ne _ _ _ | exact name_unmarshal_ne_panic _ _ | exact str_unmarshal_ne_panic _ _
    | (unfold NoArgs.unmarshal; np <;> np)
    | exact lock_ne _ | exact hubINFO_ne _ _ _ | exact names_ne _ _ | exact userIPEntries_ne _ _ | exact adcGet_ne _ _ _
    | exact adcSnd_ne _ _ _ | exact direction_ne _ | exact sr_ne _ _ _ | exact sa_ne _ | exact sp_ne _ _ | exact myINFO_ne _ _ _
    | np
  rename_i s
  intro hp
  obtain ⟨a, hash, rfl, hh⟩ := search_panic hp
  rcases h with h | h | h
  · exact h rfl
  · cases h
  · refine h a hash rfl ?_
    rw [Identifiers.unmarshalBase32_panic_iff] at hh
    split at hh
    · rename_i hl
      obtain ⟨p, rfl⟩ : ∃ p, hash = p ++ [c!"$"] := by
        rcases List.eq_nil_or_concat hash with rfl | ⟨p, x, rfl⟩
        · simp at hl
        · simp [List.concat_eq_append] at hl
          exact ⟨p, by simp [List.concat_eq_append, hl]⟩
      simp only [List.dropLast_concat] at hh
      rw [List.filter_append, List.length_append, List.take_append_of_le_length hh.1]
      exact ⟨by omega, hh.2⟩
    · exact hh

example : (Msg.search {}).unmarshal none b!"Hub:joe F?T?0?9?TTH:AAAA" ≠ .panic := by
  refine decoders_never_panic_partial (Or.inr (Or.inr ?_))
  intro a hash he h
  have h1 := congrArg List.length he
  have h2 : (hash.filter (fun c => c ≠ c!"\r" ∧ c ≠ c!"\n")).length ≤ hash.length := List.length_filter_le _ _
  simp at h1
  omega

/-- The general claim is false: this search, sent by anyone, panics the reader. -/
theorem search_decoder_panics :
    (newMessage b!"Search").unmarshal none (b!"Hub:joe F?T?0?9?TTH:" ++ List.replicate 40 c!"A") = .panic := by
  decide +kernel

/-! ## C38 -/

/-- The types whose decoder looks at the previous value. -/
def Stale : Msg → Bool
  | .chat _ | .userCommand _ | .connectToMe _ | .errMsg _ _ | .hubINFO _ | .adcGet _ | .adcSnd _ | .search _ | .sr _
  | .myINFO _ => true
  | _ => false

/-- For all other types decoding depends on the line only. -/
theorem reuse_partial [HtmlEntities] (dec : Codec) {m : Msg} (data : Bytes) (h : Stale m = false) :
    m.unmarshal dec data = m.fresh.unmarshal dec data := by
  cases m <;> first | (simp [Stale] at h; done) | rfl

example : (Msg.lock ⟨true, b!"a", b!"b", b!"c"⟩).unmarshal none b!"x" = (Msg.lock {}).unmarshal none b!"x" :=
  reuse_partial none _ rfl

/-- For each type of the list the previous value can show: the general claim is false of each of them. -/
theorem reuse_stale : ∀ m : Msg, Stale m = true → ∃ used : Msg, used.fresh = m.fresh ∧ ∃ data r r',
    m.fresh.unmarshal none data = .ok r ∧ used.unmarshal none data = .ok r' ∧ r ≠ r' := by
  intro m hm
  have ex : ∀ used : Msg, used.fresh = m.fresh → ∀ data r r', m.fresh.unmarshal none data = .ok r →
      used.unmarshal none data = .ok r' → r ≠ r' → ∃ used : Msg, used.fresh = m.fresh ∧ ∃ data r r',
    m.fresh.unmarshal none data = .ok r ∧ used.unmarshal none data = .ok r' ∧ r ≠ r' := by
    intro u hu d r r' h1 h2 h3; exact ⟨u, hu, d, r, r', h1, h2, h3⟩
  cases m with
  | chat m => exact ex (.chat ⟨b!"joe", []⟩) rfl b!"hi" (.chat ⟨[], b!"hi"⟩) (.chat ⟨b!"joe", b!"hi"⟩) (by simp only [Msg.fresh]; decide +kernel) (by decide +kernel) (by decide +kernel)
  | userCommand m =>
    exact ex (.userCommand ⟨0, 0, [b!"a"], b!"c"⟩) rfl b!"255 1" (.userCommand ⟨255, 1, [], []⟩) (.userCommand ⟨255, 1, [b!"a"], b!"c"⟩)
      (by simp only [Msg.fresh]; decide +kernel) (by decide +kernel) (by decide +kernel)
  | connectToMe m =>
    exact ex (.connectToMe { secure := true }) rfl b!"joe 1.2.3.4:5" (.connectToMe ⟨b!"joe", [], b!"1.2.3.4:5", 0, false⟩)
      (.connectToMe ⟨b!"joe", [], b!"1.2.3.4:5", 0, true⟩) (by simp only [Msg.fresh]; decide +kernel) (by decide +kernel) (by decide +kernel)
  | errMsg k m =>
    exact ex (.errMsg k (some b!"old")) rfl [] (.errMsg k none) (.errMsg k (some b!"old")) (by simp only [Msg.fresh]; cases k <;> decide +kernel)
      (by cases k <;> decide +kernel) (by simp)
  | hubINFO m =>
    exact ex (.hubINFO { host := b!"old" }) rfl b!"hub" (.hubINFO { name := b!"hub" }) (.hubINFO { name := b!"hub", host := b!"old" })
      (by simp only [Msg.fresh]; decide +kernel) (by decide +kernel) (by decide +kernel)
  | adcGet m =>
    exact ex (.adcGet { compressed := true }) rfl b!"file x 0 1" (.adcGet ⟨b!"file", b!"x", 0, 1, false, none⟩)
      (.adcGet ⟨b!"file", b!"x", 0, 1, true, none⟩) (by simp only [Msg.fresh]; decide +kernel) (by decide +kernel) (by decide +kernel)
  | adcSnd m =>
    exact ex (.adcSnd { compressed := true }) rfl b!"file x 0 1" (.adcSnd ⟨b!"file", b!"x", 0, 1, false⟩)
      (.adcSnd ⟨b!"file", b!"x", 0, 1, true⟩) (by simp only [Msg.fresh]; decide +kernel) (by decide +kernel) (by decide +kernel)
  | search m =>
    exact ex (.search { address := b!"old" }) rfl b!"Hub:joe F?T?0?1?x"
      (.search { user := b!"joe", isMaxSize := true, dataType := 1, pattern := b!"x" })
      (.search { address := b!"old", user := b!"joe", isMaxSize := true, dataType := 1, pattern := b!"x" })
      (by simp only [Msg.fresh]; decide +kernel) (by decide +kernel) (by decide +kernel)
  | sr m =>
    exact ex (.sr { dst := b!"old" }) rfl (b!"joe d 1/2" ++ [5] ++ b!"hub (h)")
      (.sr { src := b!"joe", path := [b!"d"], isDir := true, freeSlots := 1, totalSlots := 2, hubName := b!"hub", hubAddress := b!"h" })
      (.sr { src := b!"joe", path := [b!"d"], isDir := true, freeSlots := 1, totalSlots := 2, hubName := b!"hub", hubAddress := b!"h", dst := b!"old" })
      (by simp only [Msg.fresh]; decide +kernel) (by decide +kernel) (by decide +kernel)
  | myINFO m =>
    exact ex (.myINFO { slots := 5 }) rfl b!"$ALL joe desc$ $$$1$"
      (.myINFO { name := b!"joe", desc := b!"desc", shareSize := 1 })
      (.myINFO { name := b!"joe", desc := b!"desc", shareSize := 1, slots := 5 })
      (by simp only [Msg.fresh]; decide +kernel) (by decide +kernel) (by decide +kernel)
  | _ => simp [Stale] at hm

end Verif.Props.NmdcMessages
