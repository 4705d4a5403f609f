import Verif.Adc.LeftLemmas

/-!
# C104: what a refused payload leaves in an ADC message

`Verif/Spec/AdcLeft.lean` says what is left.
-/

namespace Verif.Props.AdcLeft

open Verif.Go Verif.Adc Verif.Tiger Verif.Spec.AdcWire Verif.Spec.AdcLeft
open Verif.Props.AdcWire (cut_cases numeral_iff append_cut)

set_option linter.unusedSectionVars false

/-! ## The methods of the messages -/

theorem outcome_bind {α β : Type} (r : Res α) (f : α → β) : outcome (r >>= fun a => .ok (f a)) = outcome r := by cases r <;> rfl

theorem outcome_eq {α β : Type} {r : Res α} {x : β × Res Unit} {f : α → β} (h : value x = (r >>= fun a => .ok (f a))) : x.2 = outcome r := by
  rw [← outcome_value, h, outcome_bind]

theorem value_wrap {α : Type} (f : α → Msg) (x : α × Res Unit) : value (wrap f x) = (value x >>= fun a => .ok (f a)) := by
  obtain ⟨v, r⟩ := x
  cases r <;> rfl

theorem wrap_snd {α : Type} (f : α → Msg) (x : α × Res Unit) : (wrap f x).2 = x.2 := rfl

theorem get_value (data : Bytes) (m : GetRequest) : value (GetRequest.fill data m) = GetRequest.unmarshal data m := by
  unfold GetRequest.fill GetRequest.unmarshal
  cases indexByte data c!" " with
  | none => rfl
  | some i =>
    simp only
    generalize data.drop (i + 1) = d1
    cases indexByte d1 c!" " with
    | none => rfl
    | some i2 =>
      simp only
      generalize d1.drop (i2 + 1) = d2
      cases indexByte d2 c!" " with
      | none => rfl
      | some i3 =>
        simp only
        cases parseInt (d2.take i3) 64 with
        | err e => rfl
        | panic => rfl
        | ok n =>
          simp only
          generalize d2.drop (i3 + 1) = d3
          cases indexByte d3 c!" " with
          | none =>
            simp only
            cases parseInt d3 64 <;> rfl
          | some i4 =>
            simp only
            cases parseInt (d3.take i4) 64 with
            | err e => rfl
            | panic => rfl
            | ok l =>
              simp only
              repeat' split
              all_goals rfl

theorem salt_value (data : Bytes) : value (GetPassword.fill data) = GetPassword.unmarshal data ∧
    ((GetPassword.fill data).2 ≠ .ok () → LeftSalt data (GetPassword.fill data).1) := by
  obtain ⟨w, ds, tail, g1, g2, g3, g4, g5, g6, g7, g8, g9⟩ :=
    HashVar.into_spec (Base32.stripNewlines data) (List.replicate (data.length * 5 / 8) 0) 0 (by omega)
  simp only [List.take_zero, List.nil_append, Nat.zero_add, Nat.sub_zero, List.length_replicate, List.drop_replicate] at g1 g2 g7 g8 g9
  have hdec : Base32.decodeLoop (data.length * 5 / 8) (Base32.stripNewlines data) = Base32.decode (data.length * 5 / 8) data := rfl
  rw [hdec] at g8 g9
  constructor
  · unfold GetPassword.fill GetPassword.unmarshal Base32.into
    simp only
    rw [g8, g1]
    cases hd : Base32.decode (data.length * 5 / 8) data with
    | ok out => rw [g9 out hd]; rfl
    | err e => rfl
    | panic => rfl
  · intro _
    have e : (GetPassword.fill data).1 = w ++ List.replicate (data.length * 5 / 8 - w.length) 0 := g1
    refine ⟨by rw [e]; simp; omega, w, _, ⟨ds, tail, g3, ?_, g5, g6⟩, e, ?_, ?_⟩
    · rw [Identifiers.map_alphabet g3]; exact g4
    · intro b hb; exact (List.mem_replicate.mp hb).2
    · intro k hv
      obtain ⟨v1, v2⟩ := (HashVar.valid_iff _ _).mp hv
      have hle : (Base32.stripNewlines data).length ≤ data.length := List.length_filter_le _ _
      have := g7 k v1 v2 (by omega)
      omega

section
variable [ParseFloat]

/-- The two lists of names. -/
theorem mod_row (s : Bytes) : unmarshalRow modFields s (Row.zero modFields) =
    .ok (((valuesOf b!"AD" (split s c!" ")).map unescape : List Bytes), ((valuesOf b!"RM" (split s c!" ")).map unescape : List Bytes), ()) := by
  have slices : ∀ ss : List Bytes, unmarshalSlice .str ss = .ok (ss.map unescape : List Bytes) := by
    intro ss
    induction ss with
    | nil => rfl
    | cons x ss ih =>
      have h1 : unmarshalValue x .str (Kind.zero .str) = .ok (unescape x : Bytes) :=
        (reads_iff x .str (Kind.zero .str) (unescape x : Bytes)).mpr (unescapes_self x)
      simp only [unmarshalSlice, h1, ih]
      rfl
  have tagged : ∀ ss : List Bytes, unmarshalTagged ss (.slice .str) (Kind.zero (.slice .str)) = .ok (ss.map unescape : List Bytes) := by
    intro ss
    cases ss with
    | nil => rfl
    | cons x ss => exact slices (x :: ss)
  have h1 := tagged (valuesOf b!"AD" (split s c!" "))
  have h2 := tagged (valuesOf b!"RM" (split s c!" "))
  rw [← taggedVals_eq _ rfl] at h1 h2
  rw [← taggedVals_eq b!"AD" rfl, ← taggedVals_eq b!"RM" rfl]
  exact (unmarshalFields_named ⟨"Add", b!"AD", false, .slice .str⟩ [⟨"Rm", b!"RM", false, .slice .str⟩] (by decide) _ _ _ _ _).mpr
    ⟨by rw [h1, taggedVals_eq b!"AD" rfl], (unmarshalFields_named ⟨"Rm", b!"RM", false, .slice .str⟩ [] (by decide) _ _ _ _ _).mpr
      ⟨by rw [h2, taggedVals_eq b!"RM" rfl], rfl⟩⟩

theorem modFill_value (st : Bool) (names : List Bytes) : ∀ m : FeaList, value (modFill m st names) = modAssign m st names := by
  induction names with
  | nil => intro m; rfl
  | cons n names ih =>
    intro m
    simp only [modFill, modAssign]
    cases Feature.unmarshal n with
    | ok f => exact ih _
    | err e => rfl
    | panic => rfl

theorem modFill_left (st : Bool) (names : List Bytes) : ∀ m : FeaList, ∃ fs : List Feature,
    (modFill m st names).1 = fs.foldl (fun m f => m.assign f st) m ∧
    (((modFill m st names).2 = .ok () ∧ names = fs.map Feature.bytes) ∨
      ((modFill m st names).2 ≠ .ok () ∧ ∃ bad rest, names = fs.map Feature.bytes ++ bad :: rest ∧ bad.length ≠ 4)) := by
  induction names with
  | nil => intro m; exact ⟨[], rfl, .inl ⟨rfl, rfl⟩⟩
  | cons n names ih =>
    intro m
    simp only [modFill]
    unfold Feature.unmarshal
    by_cases hn : n.length = 4
    · rw [dif_pos hn]
      simp only
      obtain ⟨fs, h1, h2⟩ := ih (m.assign ⟨n, hn⟩ st)
      refine ⟨⟨n, hn⟩ :: fs, h1, ?_⟩
      rcases h2 with ⟨h2, rfl⟩ | ⟨h2, bad, rest, rfl, h3⟩
      · exact .inl ⟨h2, rfl⟩
      · exact .inr ⟨h2, bad, rest, rfl, h3⟩
    · rw [dif_neg hn]
      exact ⟨[], rfl, .inr ⟨by simp, n, names, rfl, hn⟩⟩

theorem names_self (tag : Bytes) (parts : List Bytes) : Names tag parts ((valuesOf tag parts).map unescape) := by
  refine ⟨by simp, ?_⟩
  generalize valuesOf tag parts = vs
  induction vs with
  | nil => simp
  | cons v vs ih =>
    simp only [List.map_cons, List.zip_cons_cons, List.mem_cons]
    rintro x (rfl | hx)
    · exact unescapes_self v
    · exact ih x hx

theorem features_value (s : Bytes) (cur : ModFeatures) : value (ModFeatures.fill s cur) = ModFeatures.unmarshal s cur ∧
    ((ModFeatures.fill s cur).2 ≠ .ok () → LeftFeatures cur s (ModFeatures.fill s cur).1) := by
  generalize hA : (valuesOf b!"AD" (split s c!" ")).map unescape = adds
  generalize hR : (valuesOf b!"RM" (split s c!" ")).map unescape = rms
  have e1 : ModFeatures.fill s cur = (match modFill cur.entries false rms with
      | (m, .ok _) => (some (modFill m true adds).1, (modFill m true adds).2)
      | (m, r) => (some m, r)) := by rw [ModFeatures.fill, mod_row, hA, hR]; rfl
  have e2 : ModFeatures.unmarshal s cur = (do
      let m ← modAssign cur.entries false rms
      let m ← modAssign m true adds
      .ok (some m)) := by rw [ModFeatures.unmarshal, mod_row, hA, hR]; rfl
  rw [e1, e2, ← modFill_value]
  obtain ⟨off, h1, h2⟩ := modFill_left false rms cur.entries
  generalize modFill cur.entries false rms = y at h1 h2 ⊢
  obtain ⟨m, r⟩ := y
  simp only at h1 h2
  subst h1
  have get0 : ∀ k, FeaList.get (off.foldl (fun m f => m.assign f false) cur.entries) k = if k ∈ off then some false else cur.get k := by
    intro k; rw [AdcWire.foldl_assign_get]; rfl
  rcases h2 with ⟨rfl, h2⟩ | ⟨hr, bad, rest, h2, h3⟩
  · simp only [value, Res.ok_bind]
    rw [← modFill_value]
    obtain ⟨on, k1, k2⟩ := modFill_left true adds (off.foldl (fun m f => m.assign f false) cur.entries)
    generalize modFill (off.foldl (fun m f => m.assign f false) cur.entries) true adds = y at k1 k2 ⊢
    obtain ⟨m, r⟩ := y
    simp only at k1 k2
    subst k1
    constructor
    · cases r <;> rfl
    · intro h
      rcases k2 with ⟨k2, -⟩ | ⟨-, bad, rest, k2, k3⟩
      · exact absurd k2 h
      · refine ⟨split s c!" ", adds, rms, on, off, (parts_iff _ _ _).mpr rfl, hA ▸ names_self _ _, hR ▸ names_self _ _,
          .inr ⟨h2, bad, rest, k2, k3⟩, rfl, ?_⟩
        intro k
        show FeaList.get (on.foldl (fun m f => m.assign f true) (off.foldl (fun m f => m.assign f false) cur.entries)) k = _
        rw [AdcWire.foldl_assign_get, get0]
  · constructor
    · cases r with
      | ok => exact absurd rfl hr
      | err e => rfl
      | panic => rfl
    · intro _
      have : LeftFeatures cur s (some (off.foldl (fun m f => m.assign f false) cur.entries)) :=
        ⟨split s c!" ", adds, rms, [], off, (parts_iff _ _ _).mpr rfl, hA ▸ names_self _ _, hR ▸ names_self _ _,
          .inl ⟨bad, rest, h2, h3, rfl⟩, rfl, fun k => by simp only [List.not_mem_nil, if_false]; exact get0 k⟩
      cases r with
      | ok => exact absurd rfl hr
      | err e => exact this
      | panic => exact this

theorem get_left (data : Bytes) (m : GetRequest) (h : (GetRequest.fill data m).2 ≠ .ok ()) : LeftGet m data (GetRequest.fill data m).1 := by
  have drop : ∀ a b : Bytes, (a ++ c!" " :: b).drop (a.length + 1) = b := by
    intro a b; rw [← List.drop_drop, List.drop_left]; rfl
  have nofit : ∀ {s : Bytes} {e : Err}, parseInt s 64 = .err e → ¬ ∃ n, Fits s n := by
    rintro s e he ⟨n, hn⟩
    rw [(numeral_iff s n).mpr hn] at he; cases he
  have nopanic : ∀ {s : Bytes}, parseInt s 64 ≠ .panic := fun {s} => parseInt_ne_panic s 64
  unfold GetRequest.fill at h ⊢
  rcases cut_cases data c!" " with ⟨h1, hi⟩ | ⟨a, d1, h1, rfl, hi⟩
  · simp only [hi]
    exact .typ h1
  simp only [hi, List.take_left', drop] at h ⊢
  rcases cut_cases d1 c!" " with ⟨h2, hi2⟩ | ⟨b, d2, h2, rfl, hi2⟩
  · simp only [hi2]
    exact .path h1 h2 (unescapes_self a)
  simp only [hi2, List.take_left, drop] at h ⊢
  rcases cut_cases d2 c!" " with ⟨h3, hi3⟩ | ⟨c, d3, h3, rfl, hi3⟩
  · simp only [hi3]
    exact .start h1 h2 h3 (unescapes_self a) (unescapes_self b)
  simp only [hi3, List.take_left, drop] at h ⊢
  cases hs : parseInt c 64 with
  | panic => exact absurd hs nopanic
  | err e => exact .badStart h1 h2 h3 (unescapes_self a) (unescapes_self b) (nofit hs) (beside_left hs)
  | ok n =>
    have hn : Fits c n := (numeral_iff c n).mp hs
    rw [hs] at h
    simp only at h ⊢
    rcases cut_cases d3 c!" " with ⟨h4, hi4⟩ | ⟨d, d4, h4, rfl, hi4⟩
    · simp only [hi4] at h ⊢
      cases hl : parseInt d3 64 with
      | panic => exact absurd hl nopanic
      | err e =>
        have := LeftGet.badLength (cur := m) (s := []) h1 h2 h3 h4 (.inl rfl) (unescapes_self a) (unescapes_self b) hn (nofit hl) (beside_left hl)
        rw [List.append_nil] at this
        exact this
      | ok l => rw [hl] at h; exact absurd rfl h
    · simp only [hi4, List.take_left, drop] at h ⊢
      cases hl : parseInt d 64 with
      | panic => exact absurd hl nopanic
      | err e => exact .badLength h1 h2 h3 h4 (.inr rfl) (unescapes_self a) (unescapes_self b) hn (nofit hl) (beside_left hl)
      | ok l =>
        rw [hl] at h
        simp only at h ⊢
        by_cases h0 : d4.length > 0
        · rw [if_pos h0] at h ⊢
          by_cases hz : d4 ≠ b!"ZL1"
          · rw [if_pos hz]
            exact .badFlag h1 h2 h3 h4 (List.length_pos_iff.mp h0) hz (unescapes_self a) (unescapes_self b) hn ((numeral_iff d l).mp hl)
          · rw [if_neg hz] at h; exact absurd rfl h
        · rw [if_neg h0] at h; exact absurd rfl h

/-! ## The outcome -/

theorem outcome_int_free (s : Bytes) (cur cur' : Int) : outcome (if s.length = 0 then Res.ok (0 : Int) else unmarshalInt s cur) =
    outcome (if s.length = 0 then Res.ok (0 : Int) else unmarshalInt s cur') := by
  by_cases h0 : s.length = 0
  · rw [if_pos h0, if_pos h0]
  · rw [if_neg h0, if_neg h0]
    unfold unmarshalInt
    cases parseInt s 64 with
    | ok => rfl
    | panic => rfl
    | err e => cases ParseFloat.run s <;> rfl

theorem outcome_value_free (s : Bytes) (k : Kind) (cur cur' : k.T) : outcome (unmarshalValue s k cur) = outcome (unmarshalValue s k cur') := by
  cases k with
  | int =>
    exact outcome_int_free s cur cur'
  | feats =>
    show outcome (ExtFeatures.unmarshal s cur) = outcome (ExtFeatures.unmarshal s cur')
    unfold ExtFeatures.unmarshal
    split <;> rfl
  | path =>
    exact (congrArg outcome (path_loop cur (split s c!"/"))).trans (congrArg outcome (path_loop cur' (split s c!"/"))).symm
  | _ => rfl

theorem outcome_tagged_free (vals : List Bytes) (k : Kind) (cur cur' : k.T) :
    outcome (unmarshalTagged vals k cur) = outcome (unmarshalTagged vals k cur') := by
  cases vals with
  | nil => cases k <;> rfl
  | cons v rest =>
    cases k with
    | slice k => rfl
    | _ =>
      simp only [unmarshalTagged]
      repeat' split
      all_goals first | rfl | exact outcome_value_free _ _ _ _

theorem outcome_fields_free : ∀ (fs : List Fld) (sub : List Bytes) (cur cur' : Row fs),
    outcome (unmarshalFields fs sub cur) = outcome (unmarshalFields fs sub cur') := by
  intro fs
  have two : ∀ {α β : Type} (a a' : Res α) (b b' : Res β), outcome a = outcome a' → outcome b = outcome b' →
      outcome (a >>= fun x => b >>= fun y => .ok (x, y)) = outcome (a' >>= fun x => b' >>= fun y => .ok (x, y)) := by
    intro α β a a' b b' h1 h2
    cases a <;> cases a' <;> simp only [outcome, reduceCtorEq, Res.err.injEq] at h1 <;> cases b <;> cases b' <;>
      simp only [outcome, reduceCtorEq, Res.err.injEq] at h2 <;> first | rfl | (subst h1; rfl) | (subst h2; rfl)
  induction fs with
  | nil => intro sub cur cur'; rfl
  | cons f fs ih =>
    intro sub cur cur'
    obtain ⟨c, cs⟩ := cur
    obtain ⟨c', cs'⟩ := cur'
    simp only [unmarshalFields]
    by_cases ht : f.tag = b!"#"
    · rw [if_pos ht, if_pos ht]
      cases sub with
      | nil => rfl
      | cons v sub => exact two _ _ _ _ (outcome_value_free _ _ _ _) (ih sub cs cs')
    · rw [if_neg ht, if_neg ht]
      exact two _ _ _ _ (outcome_tagged_free _ _ _ _) (ih sub cs cs')

theorem outcome_get_free (data : Bytes) (m m' : GetRequest) : outcome (GetRequest.unmarshal data m) = outcome (GetRequest.unmarshal data m') := by
  unfold GetRequest.unmarshal
  cases indexByte data c!" " with
  | none => rfl
  | some i =>
    simp only
    generalize data.drop (i + 1) = d1
    cases indexByte d1 c!" " with
    | none => rfl
    | some i2 =>
      simp only
      generalize d1.drop (i2 + 1) = d2
      cases indexByte d2 c!" " with
      | none => rfl
      | some i3 =>
        simp only
        cases parseInt (d2.take i3) 64 with
        | err e => rfl
        | panic => rfl
        | ok n =>
          simp only
          generalize d2.drop (i3 + 1) = d3
          cases indexByte d3 c!" " with
          | none =>
            simp only
            cases parseInt d3 64 <;> rfl
          | some i4 =>
            simp only
            cases parseInt (d3.take i4) 64 with
            | err e => rfl
            | panic => rfl
            | ok l =>
              simp only
              repeat' split
              all_goals rfl

/-! ## C104 -/

/-- **C104.** The value behind the pointer after a call that succeeds is the one of the other theorems (C69); the call fails, or panics, as theirs
does. -/
theorem fill_agrees (m : Msg) (data : Bytes) : value (m.fill data) = m.unmarshalTo data := by
  cases m with
  | raw typ d => rfl
  | zon => rfl
  | zoff => rfl
  | supported f => exact (value_wrap _ _).trans (by rw [(features_value data f).1]; rfl)
  | status s => exact (value_wrap _ _).trans (by rw [Status.fill, value_assigned]; rfl)
  | get r => exact (value_wrap _ _).trans (by rw [get_value]; rfl)
  | snd r => exact (value_wrap _ _).trans (by rw [get_value]; rfl)
  | sidAssign id => exact (value_wrap _ _).trans (by rw [value_assigned]; rfl)
  | getPassword s => exact (value_wrap _ _).trans (by rw [(salt_value data).1]; rfl)
  | infoMod f => exact (value_wrap _ _).trans (by rw [Fields.fill, value_assigned]; rfl)
  | struct t row => exact (value_wrap _ _).trans (by rw [fillRow, fillFields_value]; rfl)

/-- **C104.** The type of the message stays. -/
theorem fill_type (m : Msg) (data : Bytes) : SameType m (m.fill data).1 := by
  cases m <;> trivial

/-- **C104.** Whether a payload is accepted, and with which error it is refused, does not depend on what the message held before. -/
theorem outcome_free (m m' : Msg) (data : Bytes) (h : SameType m m') : (m.fill data).2 = (m'.fill data).2 := by
  rw [← outcome_value, ← outcome_value, fill_agrees, fill_agrees]
  cases m <;> cases m' <;> try exact h.elim
  case raw => rfl
  case zon => rfl
  case zoff => rfl
  case status => rfl
  case sidAssign => rfl
  case getPassword => rfl
  case infoMod => rfl
  case supported f f' =>
    show outcome (_ >>= fun a => .ok (Msg.supported a)) = outcome (_ >>= fun a => .ok (Msg.supported a))
    rw [outcome_bind, outcome_bind]
    have mo : ∀ (st : Bool) (names : List Bytes) (a b : FeaList), outcome (modAssign a st names) = outcome (modAssign b st names) := by
      intro st names
      induction names with
      | nil => intro a b; rfl
      | cons n names ih =>
        intro a b
        simp only [modAssign]
        cases Feature.unmarshal n with
        | ok f => exact ih _ _
        | err e => rfl
        | panic => rfl
    have e2 : ∀ f, ModFeatures.unmarshal data f = (do
        let m ← modAssign f.entries false ((valuesOf b!"RM" (split data c!" ")).map unescape)
        let m ← modAssign m true ((valuesOf b!"AD" (split data c!" ")).map unescape)
        .ok (some m)) := by intro f; rw [ModFeatures.unmarshal, mod_row]; rfl
    rw [e2, e2]
    generalize (valuesOf b!"RM" (split data c!" ")).map unescape = rms
    generalize (valuesOf b!"AD" (split data c!" ")).map unescape = adds
    have h1 := mo false rms f.entries f'.entries
    cases ha : modAssign f.entries false rms <;> cases hb : modAssign f'.entries false rms <;> rw [ha, hb] at h1 <;>
      simp only [outcome, reduceCtorEq, Res.err.injEq] at h1
    · rename_i a b
      simp only [Res.ok_bind]
      exact (outcome_bind _ some).trans ((mo true adds a b).trans (outcome_bind _ some).symm)
    · rw [h1]
  case get r r' =>
    show outcome (_ >>= fun a => .ok (Msg.get a)) = outcome (_ >>= fun a => .ok (Msg.get a))
    rw [outcome_bind, outcome_bind]
    exact outcome_get_free _ _ _
  case snd r r' =>
    show outcome (_ >>= fun a => .ok (Msg.snd a)) = outcome (_ >>= fun a => .ok (Msg.snd a))
    rw [outcome_bind, outcome_bind]
    exact outcome_get_free _ _ _
  case struct t row t' row' =>
    have h : t = t' := h
    subst h
    show outcome (_ >>= fun a => .ok (Msg.struct t a)) = outcome (_ >>= fun a => .ok (Msg.struct t a))
    rw [outcome_bind, outcome_bind]
    exact outcome_fields_free _ _ _ _

/-- **C104.** What a refused payload leaves in the message. -/
theorem refused_left (m : Msg) (data : Bytes) (h : (m.fill data).2 ≠ .ok ()) : Left data m (m.fill data).1 := by
  cases m with
  | raw typ d => exact absurd rfl h
  | zon => exact absurd rfl h
  | zoff => exact absurd rfl h
  | supported f => exact .supported ((features_value data f).2 h)
  | status s =>
    have : (Status.fill data s).1 = s := assigned_err _ _ h
    show Left data _ (.status (Status.fill data s).1)
    rw [this]; exact .status s
  | get r => exact .get (get_left data r h)
  | snd r => exact .snd (get_left data r h)
  | sidAssign id =>
    have : (assigned id (SID.unmarshal data)).1 = id := assigned_err _ _ h
    show Left data _ (.sidAssign (assigned id (SID.unmarshal data)).1)
    rw [this]; exact .sidAssign id
  | getPassword s => exact .getPassword s ((salt_value data).2 h)
  | infoMod f =>
    have : (Fields.fill data).1 = [] := assigned_err _ _ h
    show Left data _ (.infoMod (Fields.fill data).1)
    rw [this]; exact .infoMod f
  | struct t row =>
    refine .struct ((parts_iff _ _ _).mpr rfl) (fillFields_left t.fields _ row ?_ h)
    have : t.fields.all (fun f => f.tag = b!"#" ∨ f.tag.length = 2) = true := by cases t <;> decide +kernel
    intro f hf
    simpa using List.all_eq_true.mp this f hf

/-- A chat message whose text and recipient have been read when the flag is refused. -/
example : ((Msg.struct .chat (b!"old", none, true, (7 : Int), ())).fill b!"hi PMAAAB MEyes TS5" =
    (.struct .chat (b!"hi", some ⟨b!"AAAB", rfl⟩, true, (7 : Int), ()), .err (.other 102))) := by with_unfolding_all rfl

/-- File requests: a length that is refused is assigned nevertheless. -/
example : ((Msg.get ⟨b!"a", b!"b", 1, 2, true⟩).fill b!"file x\\sy 5 99999999999999999999" =
    (.get ⟨b!"file", b!"x y", 5, 2 ^ 63 - 1, true⟩, .err (.other 112))) ∧
    ((Msg.get ⟨b!"a", b!"b", 1, 2, true⟩).fill b!"file x 5 many" = (.get ⟨b!"file", b!"x", 5, 0, true⟩, .err (.other 112))) ∧
    ((Msg.get ⟨b!"a", b!"b", 1, 2, true⟩).fill b!"file x" = (.get ⟨b!"file", b!"b", 1, 2, true⟩, .err (.other 109))) := by
  refine ⟨?_, ?_, ?_⟩ <;> with_unfolding_all rfl

/-- Features: the names before the bad one are taken, and there is a map where none was. -/
example : ((Msg.supported none).fill b!"ADBASE ADTIGER RMPING" =
    (.supported (some [(⟨b!"PING", rfl⟩, false), (⟨b!"BASE", rfl⟩, true)]), .err (.other 100))) := by with_unfolding_all rfl

/-- A list of parameters is lost. -/
example : ((Msg.infoMod [⟨b!"NI", rfl, b!"bob"⟩]).fill b!"NIalice X" = (.infoMod [], .err (.other 106))) := by with_unfolding_all rfl

/-- A password hash is mixed with the old one; a message without its part is left alone by the panic. -/
example : ((Msg.struct .password (Hash.zero, ())).fill b!"77777777!" ).2 = .err (.other 60) ∧
    (∀ old : Row StructType.revConnect.fields, ((Msg.struct .revConnect old).fill b!"ADC/1.0").2 = .panic) := by
  refine ⟨by with_unfolding_all rfl, fun old => by with_unfolding_all rfl⟩

/-- **C104.** `DecodeMessageTo`: the target is left alone if the packet does not hold a raw message of its command, and then there is an error;
otherwise the target is filled with the payload. -/
theorem decode_to (p : PacketVal) (to : Msg) :
    (∀ typ data, p.msg = some (.raw typ data) → to.cmd = typ → p.fillTo to = to.fill data) ∧
    ((¬ ∃ data, p.msg = some (.raw to.cmd data)) → (p.fillTo to).1 = to ∧ ∃ e, (p.fillTo to).2 = .err e) ∧
    (∀ m, p.msg = some m → value (p.fillTo to) = decodeMessageTo m to) := by
  unfold PacketVal.fillTo
  refine ⟨?_, ?_, ?_⟩
  · rintro typ data h rfl
    simp [h]
  · intro h
    cases hm : p.msg with
    | none => exact ⟨rfl, _, rfl⟩
    | some m =>
      cases m with
      | raw typ data =>
        simp only
        have : to.cmd ≠ typ := by rintro rfl; exact h ⟨data, hm⟩
        rw [if_pos this]
        exact ⟨rfl, _, rfl⟩
      | _ => exact ⟨rfl, _, rfl⟩
  · intro m hm
    rw [hm]
    cases m with
    | raw typ data =>
      simp only [decodeMessageTo]
      split
      · rfl
      · exact fill_agrees to data
    | _ => rfl

example : (PacketVal.fillTo ⟨.client, some (.raw ⟨b!"STA", rfl⟩ b!"100 x")⟩ (.status ⟨0, 0, []⟩)).1 = .status ⟨1, 0, b!"x"⟩ ∧
    (PacketVal.fillTo ⟨.client, some (.raw ⟨b!"SID", rfl⟩ b!"AAAA")⟩ (.status ⟨2, 51, b!"y"⟩)).1 = .status ⟨2, 51, b!"y"⟩ := by
  refine ⟨?_, ?_⟩ <;> with_unfolding_all rfl

/-- A finding: a payload given again after a refused one need not give what it gives at first. The path of a user command keeps the
elements of the refused one. -/
theorem refused_shows : ∃ (m : Msg) (bad good : Bytes), (m.fill bad).2 ≠ .ok () ∧ (m.fill good).2 = .ok () ∧
    ((m.fill bad).1.fill good).2 = .ok () ∧ ((m.fill bad).1.fill good).1 ≠ (m.fill good).1 := by
  refine ⟨.struct .userCommand (Row.zero _), b!"a TTx TTy", b!"b", ?_, ?_, ?_, ?_⟩
  · have : ((Msg.struct .userCommand (Row.zero _)).fill b!"a TTx TTy").2 = .err (.other 104) := by with_unfolding_all rfl
    rw [this]; simp
  · with_unfolding_all rfl
  · with_unfolding_all rfl
  · have e1 : (((Msg.struct .userCommand (Row.zero _)).fill b!"a TTx TTy").1.fill b!"b").1 =
        .struct .userCommand ([b!"a", b!"b"], [], (0 : Int), (0 : Int), (0 : Int), (0 : Int), ()) := by with_unfolding_all rfl
    have e2 : ((Msg.struct .userCommand (Row.zero _)).fill b!"b").1 =
        .struct .userCommand ([b!"b"], [], (0 : Int), (0 : Int), (0 : Int), (0 : Int), ()) := by with_unfolding_all rfl
    rw [e1, e2]
    intro h
    have h := eq_of_heq (Msg.struct.inj h).2
    have h : ([b!"a", b!"b"] : List Bytes) = [b!"b"] := congrArg Prod.fst h
    simp at h

end

end Verif.Props.AdcLeft
