import Verif.Adc.BackLemmas

/-!
# C94: which ADC messages come back from their payload

`Verif/Spec/AdcBack.lean` says which messages come back (`Back`), which have the type their command stands for (`Typed`), and when two
messages are the same.
-/

namespace Verif.Props.AdcBack

open Verif.Go Verif.Adc Verif.Tiger Verif.Spec Verif.Spec.AdcWire Verif.Spec.AdcBack Verif.Props.AdcMessages

variable [ParseFloat]

set_option linter.unusedSectionVars false

/-- **C94.** A message that is written and read into a new value of its type comes back exactly if it is one of those in `Back`. -/
theorem own_type (m : Msg) (hv : Value m) :
    (∃ b m', m.marshal = .ok b ∧ (fresh m).unmarshalTo b = .ok m' ∧ Same m m') ↔ Back m := by
  cases m with
  | raw typ data => exact ⟨fun _ => trivial, fun _ => ⟨_, _, rfl, rfl, rfl⟩⟩
  | supported f =>
    refine Iff.trans ?_ (features_back f hv)
    constructor
    · rintro ⟨b, m', h1, h2, h3⟩
      cases h1
      simp only [fresh, Msg.unmarshalTo, Res.bind_eq_ok] at h2
      obtain ⟨g, hg, h2⟩ := h2
      cases h2
      exact ⟨g, hg, h3⟩
    · rintro ⟨g, hg, h⟩
      refine ⟨_, .supported g, rfl, ?_, h⟩
      simp only [fresh, Msg.unmarshalTo, hg, Res.ok_bind]
  | status s =>
    refine Iff.trans ?_ (status_back s)
    constructor
    · rintro ⟨b, m', h1, h2, h3⟩
      cases h1
      simp only [fresh, Msg.unmarshalTo, Res.bind_eq_ok] at h2
      obtain ⟨g, hg, h2⟩ := h2
      cases h2
      cases h3
      exact hg
    · intro h
      refine ⟨_, .status s, rfl, ?_, rfl⟩
      simp only [fresh, Msg.unmarshalTo, h, Res.ok_bind]
  | infoMod f =>
    refine Iff.trans ?_ (params_back f)
    constructor
    · rintro ⟨b, m', h1, h2, h3⟩
      cases h1
      simp only [fresh, Msg.unmarshalTo, Res.bind_eq_ok] at h2
      obtain ⟨g, hg, h2⟩ := h2
      cases h2
      cases h3
      exact hg
    · intro h
      refine ⟨_, .infoMod f, rfl, ?_, rfl⟩
      simp only [fresh, Msg.unmarshalTo, h, Res.ok_bind]
  | struct t row =>
    refine Iff.trans ?_ (struct_back t row hv)
    constructor
    · rintro ⟨b, m', h1, h2, h3⟩
      cases h3
      exact ⟨b, h1, h2⟩
    · rintro ⟨b, h1, h2⟩
      exact ⟨b, _, h1, h2, rfl⟩
  | zon => exact ⟨fun _ => trivial, fun _ => ⟨_, _, rfl, rfl, rfl⟩⟩
  | zoff => exact ⟨fun _ => trivial, fun _ => ⟨_, _, rfl, rfl, rfl⟩⟩
  | get r =>
    refine ⟨fun _ => trivial, fun _ => ⟨_, .get r, rfl, ?_, rfl⟩⟩
    simp only [fresh, Msg.unmarshalTo, get_roundtrip r ⟨[], [], 0, 0, false⟩ hv.1 hv.2 rfl, Res.ok_bind]
  | snd r =>
    refine ⟨fun _ => trivial, fun _ => ⟨_, .snd r, rfl, ?_, rfl⟩⟩
    simp only [fresh, Msg.unmarshalTo, get_roundtrip r ⟨[], [], 0, 0, false⟩ hv.1 hv.2 rfl, Res.ok_bind]
  | sidAssign id =>
    refine ⟨fun _ => trivial, fun _ => ⟨_, .sidAssign id, rfl, ?_, rfl⟩⟩
    have : SID.unmarshal id.marshal = .ok id := (AdcWire.sid_reads _ _).mpr rfl
    simp only [fresh, Msg.unmarshalTo, this, Res.ok_bind]
  | getPassword salt =>
    refine ⟨fun _ => trivial, fun _ => ⟨_, .getPassword salt, rfl, ?_, rfl⟩⟩
    simp only [fresh, Msg.unmarshalTo, salt_roundtrip, Res.ok_bind]

/-- The messages with the type their command stands for are those that are read into a new value of it. -/
theorem typed_lookup (m : Msg) (h : Typed m) (b : Bytes) : unmarshalMessage m.cmd b = (fresh m).unmarshalTo b := by
  cases m with
  | raw typ data =>
    refine decode_unknown typ b ?_
    intro m hm e
    have : m.cmd.bytes ∈ known := by
      have : ∀ m ∈ registered, m.cmd.bytes ∈ known := by decide +kernel
      exact this m hm
    exact h (e ▸ this)
  | infoMod => exact h.elim
  | struct t row => cases t <;> first | rfl | exact absurd rfl h
  | _ => rfl

theorem typed_of {m m' : Msg} {b : Bytes} (h2 : unmarshalMessage m.cmd b = .ok m') (h3 : Same m m') : Typed m := by
  cases m with
  | raw typ data =>
    intro hk
    have key : ∀ t : Bytes, t ∈ known → ∃ z ∈ registered, z.cmd.bytes = t := by decide +kernel
    obtain ⟨z, hz, e⟩ := key _ hk
    have e : z.cmd = typ := by
      obtain ⟨x, hx⟩ := typ
      generalize z.cmd = c at e
      obtain ⟨y, hy⟩ := c
      cases e; rfl
    have : unmarshalMessage typ b = z.unmarshalTo b := by rw [← e]; exact decode_known z hz b
    have h2 : z.unmarshalTo b = .ok m' := this ▸ h2
    cases h3
    have nr : ∀ z ∈ registered, ∀ typ data b, z.unmarshalTo b ≠ .ok (.raw typ data) := by
      intro z hz typ data b h
      cases z with
      | raw t d =>
        simp only [registered, List.mem_cons, List.not_mem_nil, or_false, StructType.new, reduceCtorEq] at hz
      | zon => cases h
      | zoff => cases h
      | _ =>
        simp only [Msg.unmarshalTo, Res.bind_eq_ok] at h
        obtain ⟨_, _, h⟩ := h
        cases h
    exact nr z hz typ data b h2
  | infoMod f =>
    cases h3
    have h2 : (StructType.new .userInfo).unmarshalTo b = .ok (.infoMod f) := h2
    simp only [StructType.new, Msg.unmarshalTo, Res.bind_eq_ok] at h2
    obtain ⟨_, _, h2⟩ := h2
    cases h2
  | struct t row =>
    rintro rfl
    cases h3
    have h2 : (StructType.new .userInfo).unmarshalTo b = .ok (.struct .hubInfo row) := h2
    simp only [StructType.new, Msg.unmarshalTo, Res.bind_eq_ok] at h2
    obtain ⟨_, _, h2⟩ := h2
    cases h2
  | _ => trivial

/-- **C94.** A message that is written and read under the name of its command comes back exactly if in addition it has the type that
the command stands for. -/
theorem by_command (m : Msg) (hv : Value m) :
    (∃ b m', m.marshal = .ok b ∧ unmarshalMessage m.cmd b = .ok m' ∧ Same m m') ↔ Back m ∧ Typed m := by
  constructor
  · rintro ⟨b, m', h1, h2, h3⟩
    have ht : Typed m := typed_of h2 h3
    rw [typed_lookup m ht b] at h2
    exact ⟨(own_type m hv).mp ⟨b, m', h1, h2, h3⟩, ht⟩
  · rintro ⟨hb, ht⟩
    obtain ⟨b, m', h1, h2, h3⟩ := (own_type m hv).mpr hb
    exact ⟨b, m', h1, by rw [typed_lookup m ht b]; exact h2, h3⟩

/-- **C94.** Whatever was received under a command can be sent on: written again, it is read as the same message. Status messages and
feature maps are left out: see `received_not_again`. `int64(vf)` of a number in floating point notation is a number of 64 bits. -/
theorem received_again (hp : ∀ s v, ParseFloat.run s = .whole v → Fits v) (name : MsgType) (data : Bytes) (m : Msg)
    (h : unmarshalMessage name data = .ok m) (h1 : name.bytes ≠ b!"STA") (h2 : name.bytes ≠ b!"SUP") :
    ∃ b, m.marshal = .ok b ∧ unmarshalMessage name b = .ok m := by
  have hc : m.cmd = name := decode_cmd (typ := name) (data := data) h
  have key : Value m ∧ Back m ∧ Typed m ∧ ∀ m', Same m m' → m' = m := by
    unfold unmarshalMessage at h
    cases hl : lookupType name with
    | none =>
      rw [hl] at h
      cases h
      refine ⟨trivial, trivial, ?_, fun m' h => h.symm⟩
      intro hk
      have : ∀ t : Bytes, t ∈ known → ∃ z ∈ registered, z.cmd.bytes = t := by decide +kernel
      obtain ⟨z, hz, e⟩ := this _ hk
      have hn := List.find?_eq_none.mp hl z hz
      apply hn
      have : z.cmd = name := by
        obtain ⟨x, hx⟩ := name
        generalize z.cmd = c at e
        obtain ⟨y, hy⟩ := c
        cases e; rfl
      simpa using this
    | some z =>
      rw [hl] at h
      have hz : z ∈ registered := List.mem_of_find?_eq_some hl
      have hzn : z.cmd = name := by simpa using List.find?_some hl
      have h : z.unmarshalTo data = .ok m := h
      simp only [registered, List.mem_cons, List.not_mem_nil, or_false] at hz
      have struct : ∀ t : StructType, t ≠ .hubInfo → t.new.unmarshalTo data = .ok m →
          Value m ∧ Back m ∧ Typed m ∧ ∀ m', Same m m' → m' = m := by
        intro t ht h
        have h0 := h
        simp only [StructType.new, Msg.unmarshalTo, Res.bind_eq_ok] at h
        obtain ⟨row, _, h⟩ := h
        cases h
        have := struct_received t data row h0
        exact ⟨this.2 hp, this.1, ht, fun m' h => h.symm⟩
      have get : ∀ r, GetRequest.unmarshal data ⟨[], [], 0, 0, false⟩ = .ok r → Fits r.start ∧ Fits r.bytes := by
        intro r h
        obtain ⟨_, _, _, _, _, _, _, _, _, _, _, _, h1, h2, _⟩ := (AdcWire.get_reads _ _ _).mp h
        exact ⟨h1.2, h2.2⟩
      rcases hz with rfl | rfl | rfl | rfl | rfl | rfl | rfl | rfl | rfl | rfl | rfl | rfl | rfl | rfl | rfl | rfl | rfl | rfl
      · exact absurd (congrArg MsgType.bytes hzn).symm h2
      · exact absurd (congrArg MsgType.bytes hzn).symm h1
      · cases h; exact ⟨trivial, trivial, trivial, fun m' h => h.symm⟩
      · cases h; exact ⟨trivial, trivial, trivial, fun m' h => h.symm⟩
      · exact struct _ (by decide) h
      · exact struct _ (by decide) h
      · exact struct _ (by decide) h
      · exact struct _ (by decide) h
      · simp only [Msg.unmarshalTo, Res.bind_eq_ok] at h
        obtain ⟨r, hr, h⟩ := h
        cases h
        exact ⟨get r hr, trivial, trivial, fun m' h => h.symm⟩
      · simp only [Msg.unmarshalTo, Res.bind_eq_ok] at h
        obtain ⟨r, hr, h⟩ := h
        cases h
        exact ⟨get r hr, trivial, trivial, fun m' h => h.symm⟩
      · simp only [Msg.unmarshalTo, Res.bind_eq_ok] at h
        obtain ⟨r, hr, h⟩ := h
        cases h
        exact ⟨trivial, trivial, trivial, fun m' h => h.symm⟩
      · exact struct _ (by decide) h
      · simp only [Msg.unmarshalTo, Res.bind_eq_ok] at h
        obtain ⟨r, hr, h⟩ := h
        cases h
        exact ⟨trivial, trivial, trivial, fun m' h => h.symm⟩
      · exact struct _ (by decide) h
      · exact struct _ (by decide) h
      · exact struct _ (by decide) h
      · exact struct _ (by decide) h
      · exact struct _ (by decide) h
  obtain ⟨hv, hb, ht, hs⟩ := key
  obtain ⟨b, m', e1, e2, e3⟩ := (by_command m hv).mpr ⟨hb, ht⟩
  rw [hs m' e3, hc] at e2
  exact ⟨b, e1, e2⟩

theorem modAssign_nodup {m m' : FeaList} {st : Bool} {l : List Bytes} (h : modAssign m st l = .ok m') (hm : (m.map (·.1)).Nodup) :
    (m'.map (·.1)).Nodup := by
  induction l generalizing m with
  | nil => cases h; exact hm
  | cons n l ih =>
    simp only [modAssign, Res.bind_eq_ok] at h
    obtain ⟨f, _, h⟩ := h
    exact ih h (AdcFeatures.nodup_assign hm f st)

theorem status_received {data : Bytes} {s : Status} (h : Status.unmarshal data = .ok s) :
    ∃ n, Fits n ∧ s.sev = n.tdiv 100 ∧ s.code = n.tmod 100 := by
  unfold Status.unmarshal at h
  simp only at h
  split at h
  · cases h
  · split at h
    · cases h
    · cases h
    · rename_i n hn
      cases h
      exact ⟨n, ((parseInt_ok (by omega) (by omega)).mp hn).2, rfl, rfl⟩

/-- **C94.** For every payload that is received under any command it is decided whether what is written for the message is read as the
same message again. -/
theorem received_again_iff (hp : ∀ s v, ParseFloat.run s = .whole v → Fits v) (name : MsgType) (data : Bytes) (m : Msg)
    (h : unmarshalMessage name data = .ok m) :
    (∃ b m', m.marshal = .ok b ∧ unmarshalMessage name b = .ok m' ∧ Same m m') ↔ Again m := by
  have hc : m.cmd = name := decode_cmd (typ := name) (data := data) h
  by_cases h1 : name.bytes = b!"STA"
  · obtain ⟨nb, hn⟩ := name
    cases h1
    simp only [unmarshalMessage, show lookupType ⟨b!"STA", hn⟩ = some (.status ⟨0, 0, []⟩) from rfl, Msg.unmarshalTo, Res.bind_eq_ok] at h
    obtain ⟨s, hs, h⟩ := h
    cases h
    obtain ⟨n, hf, e1, e2⟩ := status_received hs
    have ht := Int.mul_tdiv_add_tmod n 100
    have b1 : n.tmod 100 < 100 := Int.tmod_lt_of_pos n (by decide)
    have b2 : -100 < n.tmod 100 := Int.lt_tmod_of_pos n (by decide)
    have b3 : n ≤ 0 → n.tmod 100 ≤ 0 := by
      intro hn
      have := Int.tmod_nonneg 100 (show 0 ≤ -n by omega)
      rw [Int.neg_tmod] at this
      omega
    have hv : Value (.status s) := by
      unfold Fits at hf
      show Fits s.sev ∧ Fits s.code
      rw [e1, e2]
      unfold Fits
      omega
    rw [← hc, by_command _ hv]
    show StatusBack s ∧ True ↔ 0 ≤ s.code
    simp only [StatusBack, and_true]
    refine ⟨fun h => h.2.1, fun h => ?_⟩
    rw [e1, e2] at *
    refine ⟨?_, h, ?_, ?_⟩
    · omega
    · omega
    · rw [ht]; exact hf
  by_cases h2 : name.bytes = b!"SUP"
  · obtain ⟨nb, hn⟩ := name
    cases h2
    simp only [unmarshalMessage, show lookupType ⟨b!"SUP", hn⟩ = some (.supported none) from rfl, Msg.unmarshalTo, Res.bind_eq_ok] at h
    obtain ⟨f, hs, h⟩ := h
    cases h
    simp only [ModFeatures.unmarshal, Res.bind_eq_ok] at hs
    obtain ⟨_, _, m1, h3, m2, h4, hs⟩ := hs
    cases hs
    have hv : Value (.supported (some m2)) := modAssign_nodup h4 (modAssign_nodup h3 List.nodup_nil)
    rw [← hc, by_command _ hv]
    exact ⟨fun h => h.1, fun h => ⟨h, trivial⟩⟩
  obtain ⟨b, e1, e2⟩ := received_again hp name data m h h1 h2
  have refl : Same m m := by cases m <;> first | rfl | exact fun _ => rfl
  refine ⟨fun _ => ?_, fun _ => ⟨b, m, e1, e2, refl⟩⟩
  cases m with
  | status s => exact absurd (congrArg MsgType.bytes hc).symm h1
  | supported f => exact absurd (congrArg MsgType.bytes hc).symm h2
  | _ => trivial

/-- **C94.** A status with a negative number can be received, but what is written for it cannot be read; the same for a feature with an
escape sequence. -/
theorem received_not_again :
    (Status.unmarshal b!"-105 x" = .ok ⟨-1, -5, b!"x"⟩ ∧ ∀ st, Status.unmarshal (Status.marshal ⟨-1, -5, b!"x"⟩) ≠ .ok st) ∧
    (ModFeatures.unmarshal b!"ADA\\sBC" none = .ok (some [(⟨b!"A BC", rfl⟩, true)]) ∧
      ∀ m, ModFeatures.unmarshal (ModFeatures.marshal (some [(⟨b!"A BC", rfl⟩, true)])) none ≠ .ok m) := by
  refine ⟨⟨by decide +kernel, ?_⟩, by with_unfolding_all rfl, ?_⟩
  · have e : Status.unmarshal (Status.marshal ⟨-1, -5, b!"x"⟩) = .err (.other 107) := by decide +kernel
    intro st h
    rw [e] at h; cases h
  · intro m h
    have := features_clean h ⟨⟨b!"A BC", rfl⟩, true⟩ (by simp [ModFeatures.entries])
    exact absurd this.1 (by decide)

/-- A status that can be sent on, and one that cannot: both are received. -/
example : (unmarshalMessage ⟨b!"STA", rfl⟩ b!"140 x" = .ok (.status ⟨1, 40, b!"x"⟩) ∧ Again (.status ⟨1, 40, b!"x"⟩)) ∧
    (unmarshalMessage ⟨b!"STA", rfl⟩ b!"-200 x" = .ok (.status ⟨-2, 0, b!"x"⟩) ∧ Again (.status ⟨-2, 0, b!"x"⟩)) ∧
    (unmarshalMessage ⟨b!"STA", rfl⟩ b!"-7 x" = .ok (.status ⟨0, -7, b!"x"⟩) ∧ ¬ Again (.status ⟨0, -7, b!"x"⟩)) :=
  ⟨⟨by with_unfolding_all rfl, by show (0 : Int) ≤ 40; decide⟩, ⟨by with_unfolding_all rfl, by show (0 : Int) ≤ 0; decide⟩,
    by with_unfolding_all rfl, by show ¬ (0 : Int) ≤ -7; decide⟩

/-! ## Cases -/

/-- A private message, a user command, a disconnect and user information that come back. -/
example : Back (.struct .chat (b!"hi all", some ⟨b!"AAAB", rfl⟩, false, (5 : Int), ())) ∧
    Back (.struct .userCommand ([b!"Menu", b!"Kick user"], b!"x", (1 : Int), (0 : Int), (0 : Int), (0 : Int), ())) ∧
    Back (.status ⟨-1, 0, b!"x"⟩) ∧ Back (.status ⟨2, 99, b!"x"⟩) ∧
    Back (.infoMod [⟨b!"NI", rfl, b!"me"⟩]) := by
  refine ⟨?_, ⟨by decide, by decide⟩, ?_, ?_, ?_⟩
  · intro id h; cases h; show c!" " ∉ _; decide
  · exact ⟨.inr rfl, by decide, by decide, by decide, by decide⟩
  · exact ⟨.inl (by decide), by decide, by decide, by decide, by decide⟩
  · intro x hx
    simp at hx; subst hx
    exact ⟨by decide, by decide, by decide, by decide⟩

/-- Messages that do not: a session id with a space, no path, a slash in a path, a code of three digits, a negative severity with a code,
a description with a space in an update. -/
example : ¬ Back (.struct .chat (b!"hi all", some ⟨b!"A AB", rfl⟩, false, (5 : Int), ())) ∧
    ¬ Back (.struct .userCommand (([] : List Bytes), b!"x", (1 : Int), (0 : Int), (0 : Int), (0 : Int), ())) ∧
    ¬ Back (.struct .userCommand ([b!"a/b"], b!"x", (1 : Int), (0 : Int), (0 : Int), (0 : Int), ())) ∧
    ¬ Back (.status ⟨1, 100, b!"x"⟩) ∧ ¬ Back (.status ⟨-1, 5, b!"x"⟩) ∧
    ¬ Back (.infoMod [⟨b!"DE", rfl, b!"a b"⟩]) := by
  refine ⟨?_, fun h => h.1 rfl, ?_, ?_, ?_, ?_⟩
  · intro h; exact absurd (h ⟨b!"A AB", rfl⟩ rfl) (by show ¬ c!" " ∉ _; decide)
  · intro h; exact absurd (h.2 b!"a/b" (by simp)) (by decide)
  · intro h; exact absurd h.2.2.1 (by decide)
  · intro h; rcases h.1 with h | h <;> exact absurd h (by decide)
  · intro h; exact absurd (h ⟨b!"DE", rfl, b!"a b"⟩ (by simp)).2.1 (by decide)

/-- A backslash in a feature does not matter by itself. -/
example : KeyBack ⟨b!"A\\BC", rfl⟩ ∧ ¬ KeyBack ⟨b!"A\\nC", rfl⟩ := by
  constructor
  · refine ⟨by decide, ?_⟩
    exact ((unescapes_length ((unescapes_iff b!"A\\BC" b!"A\\BC").mpr (by decide +kernel))).2 rfl).2
  · intro h
    rcases h.2 b!"A" b!"C" c!"n" with h | h
    · exact h rfl
    · exact h.2.1 rfl

/-- Numbers are in range, and the command has the type. -/
example : Value (.struct .chat (b!"hi all", some ⟨b!"AAAB", rfl⟩, false, (5 : Int), ())) ∧
    Typed (.struct .chat (b!"hi all", some ⟨b!"AAAB", rfl⟩, false, (5 : Int), ())) ∧ Typed (.raw ⟨b!"XYZ", rfl⟩ b!"a") ∧
    ¬ Typed (.raw ⟨b!"MSG", rfl⟩ b!"a") ∧ ¬ Typed (.infoMod []) := by
  refine ⟨⟨trivial, fun _ _ => trivial, trivial, ?_, trivial⟩, ?_, ?_, ?_, fun h => h⟩
  · show Fits 5
    unfold Fits; omega
  · show StructType.chat ≠ _; decide
  · show b!"XYZ" ∉ known; decide +kernel
  · show ¬ b!"MSG" ∉ known; decide +kernel

/-- A connection request is received. -/
example : unmarshalMessage ⟨b!"CTM", rfl⟩ b!"ADC/1.0 412 tok" = .ok (.struct .connect (b!"ADC/1.0", (412 : Int), b!"tok", ())) := by
  with_unfolding_all rfl

end Verif.Props.AdcBack
