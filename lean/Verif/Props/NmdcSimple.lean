import Verif.Nmdc.SimpleLemmas

/-!
# Small NMDC messages (C21, C22, C23, C24, C25, C36)

`Name.marshal`/`unmarshal` is the codec of Hello, Kick, Close, ValidateNick, ValidateDenide, MyNick, Quit and LogedIn;
`Str` of HubName, HubTopic, SetTopic, MyPass, BotINFO, SetIcon and SetLogo; `NoArgs` of HubIsFull, ZOn, GetTopic,
BadPass, GetPass, GetNickList and MaxedOut; `ErrMsg` of Failed and Error; `RawValue` of Version, ForceMove and Key.
-/

namespace Verif.Props.NmdcSimple

open Verif.Go Verif.Spec Verif.Nmdc

attribute [local instance] basicEntities

/-! ## C21 -/

/-- Names and texts. -/
theorem value_roundtrip [HtmlEntities] {enc dec : Codec} (hl : Lossless enc dec) {s w : Bytes} :
    (NameOk enc s → Name.marshal enc s = .ok w → Name.unmarshal dec w = .ok s) ∧
    (TextOk enc s → Str.marshal enc s = .ok w → Str.unmarshal dec w = .ok s) :=
  ⟨name_roundtrip hl, str_roundtrip hl⟩

example : ∃ w, Name.marshal none b!"joe & co" = .ok w ∧ Name.unmarshal none w = .ok b!"joe & co" :=
  ⟨_, rfl, (value_roundtrip lossless_nil).1 (nameOk_of (by decide +kernel)) rfl⟩

/-- Values that are sent as they are, and messages without arguments, whatever the value. -/
theorem raw_roundtrip (s : Bytes) :
    (∃ w, RawValue.marshal s = .ok w ∧ RawValue.unmarshal w = .ok s) ∧
    (∃ w, NoArgs.marshal = .ok w ∧ NoArgs.unmarshal w = .ok ()) :=
  ⟨⟨_, rfl, rfl⟩, ⟨_, rfl, rfl⟩⟩

/-- Failed and Error: no error, or an error with a text. -/
theorem errMsg_roundtrip [HtmlEntities] {enc dec : Codec} (hl : Lossless enc dec) {m : Option Bytes} {w : Bytes}
    (hm : ∀ t, m = some t → t ≠ [] ∧ TextOk enc t) (h0 : dec.run [] = .ok [])
    (h : ErrMsg.marshal enc m = .ok w) : ErrMsg.unmarshal dec none w = .ok m := by
  cases m with
  | none =>
    simp [ErrMsg.marshal] at h
    subst h
    have : Str.unmarshal dec [] = .ok [] := by
      unfold Str.unmarshal
      have : unescapeBytes ([] : Bytes) = [] := by simp [unescapeBytes, indexByte, contains, index]
      rw [this, h0]
      simp [indexByte, validUtf8, runes, runesFrom]
    simp [ErrMsg.unmarshal, this]
  | some t =>
    obtain ⟨hne, hok⟩ := hm t rfl
    simp [ErrMsg.unmarshal, str_roundtrip hl hok h, hne]

example : ∃ w, ErrMsg.marshal none (some b!"no $$") = .ok w ∧ ErrMsg.unmarshal none none w = .ok (some b!"no $$") :=
  ⟨_, rfl, errMsg_roundtrip lossless_nil (by intro t ht; cases ht; exact ⟨by decide, textOk_of (by decide +kernel)⟩) rfl rfl⟩

/-- FailOver: a non-empty list of hosts without commas. -/
theorem failOver_roundtrip {hosts : List Bytes} {w : Bytes} (hne : hosts ≠ []) (hsep : ∀ x ∈ hosts, c!"," ∉ x)
    (h : FailOver.marshal hosts = .ok w) : FailOver.unmarshal w = .ok hosts := by
  simp only [FailOver.marshal, Res.ok.injEq] at h
  subst h
  simp [FailOver.unmarshal, split_join hne hsep]

example : ∃ w, FailOver.marshal [b!"a.example:411", b!"b.example"] = .ok w ∧
    FailOver.unmarshal w = .ok [b!"a.example:411", b!"b.example"] :=
  ⟨_, rfl, failOver_roundtrip (by decide) (by decide) rfl⟩

/-- The empty list comes back as a list with one empty host. -/
theorem failOver_empty : ∃ w, FailOver.marshal [] = .ok w ∧ FailOver.unmarshal w = .ok [[]] := ⟨_, rfl, by decide⟩

/-- Supports: a non-empty list of extension names, not empty and without spaces. -/
theorem supports_roundtrip {ext : List Bytes} {w : Bytes} (hext : ∀ x ∈ ext, x ≠ [] ∧ c!" " ∉ x)
    (h : Supports.marshal ext = .ok w) : Supports.unmarshal w = .ok ext := by
  unfold Supports.marshal at h
  split at h
  · cases h
  · rename_i hne
    cases h
    have h1 : (join ext c!" ").head? ≠ some c!" " := by
      cases ext with
      | nil => simp at hne
      | cons p ps =>
        obtain ⟨hp1, hp2⟩ := hext p (by simp)
        obtain ⟨x, t, rfl⟩ := List.exists_cons_of_ne_nil hp1
        have hx : x ≠ c!" " := fun h' => hp2 (by simp [h'])
        cases ps with
        | nil => simpa [join] using hx
        | cons q ps => simpa [join] using hx
    have h2 : (join ext c!" ").getLast? ≠ some c!" " := by
      rw [join_getLast? (fun w hw => (hext w hw).1)]
      intro h'
      obtain ⟨w, hw, hw'⟩ := Option.bind_eq_some_iff.mp h'
      exact (hext w (List.mem_of_getLast? hw)).2 (List.mem_of_getLast? hw')
    unfold Supports.unmarshal
    rw [trimLeft_id (s := join ext c!" "), trimRight_id, split_join hne (fun x hx => (hext x hx).2)]
    · rw [List.filter_eq_self.mpr]
      intro x hx; simpa using (hext x hx).1
    · intro c hc; simp only [decide_eq_false_iff_not]; rintro rfl; exact h2 hc
    · intro c hc; simp only [decide_eq_false_iff_not]; rintro rfl; exact h1 hc

example : ∃ w, Supports.marshal [b!"NoHello", b!"TTHSearch"] = .ok w ∧ Supports.unmarshal w = .ok [b!"NoHello", b!"TTHSearch"] :=
  ⟨_, rfl, supports_roundtrip (by decide) rfl⟩

/-- Encoding an empty list of extensions panics, and only that. -/
theorem supports_empty_panics {ext : List Bytes} : Supports.marshal ext = .panic ↔ ext = [] := by
  unfold Supports.marshal
  split <;> simp_all

/-! ## C22 -/

/-- HubINFO comes back unchanged; the software version is cut off at the last space. -/
theorem hubInfo_roundtrip [HtmlEntities] {enc dec : Codec} (hl : Lossless enc dec) {m : HubINFO} {w : Bytes}
    (htext : ∀ s ∈ [m.name, m.desc, m.owner, m.state], TextOk enc s)
    (hint : ∀ k ∈ [m.i1, m.i2, m.i3, m.i4], -(2 ^ 63 : Int) ≤ k ∧ k < 2 ^ 63)
    (hraw : ∀ s ∈ [m.host, m.soft.name, m.soft.version, m.encoding], c!"$" ∉ s)
    (hver : c!" " ∉ m.soft.version) (hsoft : m.soft.version = [] → c!" " ∉ m.soft.name)
    (h : m.marshal enc = .ok w) : HubINFO.unmarshal dec {} w = .ok m := by
  obtain ⟨name, host, desc, i1, i2, i3, i4, ⟨sn, sv⟩, owner, state, encoding⟩ := m
  simp only [List.mem_cons, List.not_mem_nil, or_false, forall_eq_or_imp, forall_eq] at htext hint hraw hver hsoft
  obtain ⟨t1, t2, t3, t4⟩ := htext
  obtain ⟨k1, k2, k3, k4⟩ := hint
  obtain ⟨r1, r2, r3, r4⟩ := hraw
  simp only [HubINFO.marshal, Res.bind_eq_ok, Res.pure_eq, Res.ok.injEq] at h
  obtain ⟨n, hn, d, hd, o, ho, st, hst, rfl⟩ := h
  have hi : ∀ k : Int, c!"$" ∉ itoa k := by
    intro k hk
    rcases itoa_bytes hk with h | h
    · exact absurd h (by decide)
    · exact absurd h (by decide)
  have hcl : ∀ {s w : Bytes}, Str.marshal enc s = .ok w → c!"$" ∉ w := fun hw h' => (str_marshal_clean hw _ h').1 rfl
  have hst' : c!"$" ∉ Software.text ⟨sn, sv⟩ := by
    unfold Software.text
    split <;> simp [r2, r3]
  have hsplit := splitMax_join (sep := c!"$") (n := 13)
    (ps := [n, host, d, itoa i1, itoa i2, itoa i3, itoa i4, Software.text ⟨sn, sv⟩, o, st, encoding]) (by simp)
    (by
      simp only [List.mem_cons, List.not_mem_nil, or_false, forall_eq_or_imp, forall_eq]
      exact ⟨hcl hn, r1, hcl hd, hi _, hi _, hi _, hi _, hst', hcl ho, hcl hst, r4⟩) (by simp)
  have hsw : Software.parse {} (Software.text ⟨sn, sv⟩) = ⟨sn, sv⟩ := by
    unfold Software.text Software.parse
    by_cases h0 : sv = []
    · subst h0
      simp [lastIndexByte_none.mpr (hsoft rfl)]
    · simp only [h0, if_false]
      have e : sn ++ b!" " ++ sv = sn ++ c!" " :: sv := by simp
      rw [e, lastIndexByte_append hver]
      simp
  unfold HubINFO.unmarshal
  rw [hsplit]
  simp [HubINFO.fields, HubINFO.field, str_roundtrip hl t1 hn, str_roundtrip hl t2 hd, str_roundtrip hl t3 ho,
    str_roundtrip hl t4 hst, NmdcNumbers.int_roundtrip k1.1 k1.2, NmdcNumbers.int_roundtrip k2.1 k2.2,
    NmdcNumbers.int_roundtrip k3.1 k3.2, NmdcNumbers.int_roundtrip k4.1 k4.2, mapErr, hsw]

example : ∃ w, HubINFO.marshal none ⟨b!"hub $1", b!"example.org:411", b!"about | it", 500, -1, 0, 2, ⟨b!"soft ware", b!"1.0"⟩,
      b!"joe", [], b!"CP1251"⟩ = .ok w ∧
    HubINFO.unmarshal none {} w = .ok ⟨b!"hub $1", b!"example.org:411", b!"about | it", 500, -1, 0, 2,
      ⟨b!"soft ware", b!"1.0"⟩, b!"joe", [], b!"CP1251"⟩ :=
  ⟨_, rfl, hubInfo_roundtrip lossless_nil
    (by simp only [List.mem_cons, List.not_mem_nil, or_false, forall_eq_or_imp, forall_eq]
        exact ⟨textOk_of (by decide +kernel), textOk_of (by decide +kernel), textOk_of (by decide +kernel),
          textOk_of (by decide +kernel)⟩)
    (by decide) (by decide) (by decide) (by decide) rfl⟩

/-- A software name with a space but no version is split. -/
theorem hubInfo_soft_split :
    ∃ w, HubINFO.marshal none { soft := ⟨b!"my hub", []⟩ } = .ok w ∧
      HubINFO.unmarshal none {} w = .ok { soft := ⟨b!"my", b!"hub"⟩ } := ⟨_, rfl, by decide +kernel⟩

/-! ## C23 -/

/-- A lock comes back unchanged, whatever was in the receiver. -/
theorem lock_roundtrip {m : Lock} {w : Bytes} (hlock : c!" " ∉ m.lock)
    (hext : m.noExt = true → ¬ b!"EXTENDEDPROTOCOL" <+: m.lock) (hpk : ¬ b!"Ref=" <:+: m.pk)
    (h : m.marshal = .ok w) : Lock.unmarshal w = .ok m := by
  obtain ⟨noExt, lock, pk, ref⟩ := m
  simp only at hlock hext hpk
  simp only [Lock.marshal, Res.ok.injEq] at h
  -- what follows the lock
  generalize ht : (if pk ≠ [] then b!" Pk=" ++ pk else []) ++
    (if ref ≠ [] then (if pk = [] then b!" " else []) ++ b!"Ref=" ++ ref else []) = tail at h
  have hw : w = (if !noExt then extLockPref else []) ++ (lock ++ tail) := by
    rw [← h, ← ht]; simp
  have htail : tail = [] ∨ ∃ t, tail = c!" " :: t := by
    rw [← ht]
    by_cases h1 : pk = [] <;> by_cases h2 : ref = [] <;> simp [h1, h2]
  have hp : hasPrefix (lock ++ tail) extLockPref = false ∨ noExt = false := by
    cases noExt with
    | false => exact .inr rfl
    | true =>
      refine .inl ?_
      have hne := hext rfl
      rw [Bool.eq_false_iff]
      intro hpre
      rw [hasPrefix_iff] at hpre
      apply hne
      rcases htail with rfl | ⟨t, rfl⟩
      · rw [List.append_nil] at hpre; exact hpre
      · by_cases hlen : extLockPref.length ≤ lock.length
        · exact List.prefix_of_prefix_length_le hpre (List.prefix_append _ _) hlen
        · exfalso
          have h3 : lock ++ [c!" "] <+: lock ++ c!" " :: t := ⟨t, by simp⟩
          have h4 := List.prefix_of_prefix_length_le h3 hpre (by simp; omega)
          have : c!" " ∈ extLockPref := h4.subset (by simp)
          exact absurd this (by decide)
  have hstart : Lock.unmarshal w = Lock.body noExt (lock ++ tail) := by
    rw [hw]
    unfold Lock.unmarshal
    cases noExt with
    | true => simp [hp.resolve_right (by simp)]
    | false =>
      have h1 : hasPrefix (extLockPref ++ (lock ++ tail)) extLockPref = true := by
        rw [hasPrefix_iff]; exact List.prefix_append _ _
      have h2 := sliceFrom_append extLockPref (lock ++ tail)
      have h3 : extLockPref.length = 16 := rfl
      rw [h3] at h2
      simp [h1, h2]
  rw [hstart]
  unfold Lock.body
  have hidx : ∀ r : Bytes, index (pk ++ b!"Ref=" ++ r) b!"Ref=" = some pk.length := by
    intro r
    refine index_at (by simp) ?_
    rintro ⟨x, y, hxy⟩
    apply hpk
    have hl := congrArg List.length hxy
    simp only [List.length_append, List.length_dropLast, List.length_cons, List.length_nil] at hl
    -- the occurrence ends inside `pk`: `Ref` has no `=`
    rcases List.eq_nil_or_concat y with rfl | ⟨y', z, rfl⟩
    · have := congrArg List.getLast? hxy
      simp at this
    · rw [List.concat_eq_append] at hxy
      rcases List.eq_nil_or_concat y' with rfl | ⟨y'', z', rfl⟩
      · have := congrArg (fun l => l.dropLast.getLast?) hxy
        simp at this
      · rcases List.eq_nil_or_concat y'' with rfl | ⟨y''', z'', rfl⟩
        · have := congrArg (fun l => l.dropLast.dropLast.getLast?) hxy
          simp at this
        · have e : (x ++ b!"Ref=" ++ y''') ++ [z'', z', z] = pk ++ b!"Ref" := by simpa using hxy
          exact ⟨x, y''', (List.append_inj' e rfl).1⟩
  by_cases h1 : pk = []
  · by_cases h2 : ref = []
    · simp [h1, h2] at ht
      subst ht
      simp [indexByte_none.mpr hlock, h1, h2]
    · simp [h1, h2] at ht
      subst ht
      rw [indexByte_append hlock]
      simp [h1, hasPrefix, index, sliceFrom]
  · have hpre : ∀ r : Bytes, hasPrefix (b!"Pk=" ++ r) b!"Pk=" = true := by
      intro r; rw [hasPrefix_iff]; exact List.prefix_append _ _
    have hs3 : ∀ r : Bytes, sliceFrom (b!"Pk=" ++ r) 3 = .ok r := fun r => by
      simpa using sliceFrom_append b!"Pk=" r
    by_cases h2 : ref = []
    · simp [h1, h2] at ht
      subst ht
      have hnone : index pk b!"Ref=" = none := by
        cases hi : index pk b!"Ref=" with
        | none => rfl
        | some i =>
          obtain ⟨a, b, hab, -, -⟩ := index_some hi
          exact absurd ⟨a, b, hab.symm⟩ hpk
      rw [indexByte_append hlock]
      have hpre := hpre pk
      have hs3 := hs3 pk
      simp only [List.cons_append, List.nil_append] at hpre hs3
      simp [hpre, hs3, hnone, h2]
    · simp [h1, h2] at ht
      subst ht
      rw [indexByte_append hlock]
      have hpre := hpre (pk ++ b!"Ref=" ++ ref)
      have hs3 := hs3 (pk ++ b!"Ref=" ++ ref)
      have hi := hidx ref
      have h4 := sliceFrom_lit (a := pk) (p := b!"Ref=") (b := ref) (n := 4) rfl
      simp only [List.cons_append, List.nil_append, List.append_assoc] at hpre hs3 hi h4
      simp [hpre, hs3, hi, h4]

example : ∃ w, Lock.marshal ⟨false, b!"_godc", b!"go-dc 1.0", b!"example.org:411"⟩ = .ok w ∧
    Lock.unmarshal w = .ok ⟨false, b!"_godc", b!"go-dc 1.0", b!"example.org:411"⟩ :=
  ⟨_, rfl, lock_roundtrip (by decide) (by decide) (by decide) rfl⟩

/-! ## C36 -/

/-- The raw key of a lock: `k 0 = l 0 ^ l (n-1) ^ l (n-2) ^ magic` and `k i = l i ^ l (i-1)`, nibbles swapped. -/
theorem rawKey_spec {magic : Byte} {lock k : Bytes} (h : rawKey magic lock = .ok k) :
    2 ≤ lock.length ∧ k.length = lock.length ∧
      ∀ i (hi : i < k.length) (hi' : i < lock.length) (_ : 2 ≤ lock.length), k[i] = swapNibbles
        (if i = 0 then lock[0] ^^^ lock[lock.length - 1] ^^^ lock[lock.length - 2] ^^^ magic else lock[i] ^^^ lock[i - 1]) := by
  unfold rawKey at h
  cases lock with
  | nil => simp [at'] at h
  | cons a l =>
    simp only [at', List.getElem?_cons_zero, Res.ok_bind] at h
    split at h
    · cases h
    · rename_i hn
      simp only [List.length_cons] at hn
      have g1 : (a :: l)[(a :: l).length - 1]? = some (a :: l)[(a :: l).length - 1] :=
        List.getElem?_eq_getElem (by simp)
      have g2 : (a :: l)[(a :: l).length - 2]? = some (a :: l)[(a :: l).length - 2] :=
        List.getElem?_eq_getElem (by simp; omega)
      rw [g1, g2] at h
      simp only [Res.ok_bind, Res.pure_eq, Res.ok.injEq] at h
      subst h
      refine ⟨by simp; omega, by simp [xorPairs_length], ?_⟩
      intro i hi hi' _
      have hxp : ∀ (l : Bytes) (i : Nat) (h1 : i < (xorPairs l).length) (h2 : i + 1 < l.length),
          (xorPairs l)[i] = l[i + 1] ^^^ l[i] := by
        intro l
        induction l with
        | nil => intro i h1; simp [xorPairs] at h1
        | cons x l ih =>
          cases l with
          | nil => intro i h1; simp [xorPairs] at h1
          | cons y l =>
            intro i h1 h2
            cases i with
            | zero => simp [xorPairs]
            | succ i =>
              simp only [xorPairs, List.getElem_cons_succ]
              exact ih i (by simpa [xorPairs] using h1) (by simpa using h2)
      cases i with
      | zero => simp
      | succ i =>
        simp only [List.map_cons, List.getElem_cons_succ, List.getElem_map, Nat.succ_ne_zero, if_false, Nat.add_sub_cancel]
        rw [hxp _ _ _ (by simpa using hi')]
        rfl

example : rawKey 5 b!"abcd" = .ok [0x36, 0x30, 0x10, 0x70] ∧ swapNibbles 0xA5 = 0x5A := by decide

/-- Every lock of at least two bytes has a key; a shorter one panics. -/
theorem key_defined {m : Lock} {magic : Byte} {full : Bool} {l : Bytes} (h : m.lockString full = .ok l) :
    (2 ≤ l.length → ∃ k, m.customKey magic full = .ok k) ∧ (l.length < 2 → m.customKey magic full = .panic) := by
  unfold Lock.customKey
  rw [h]
  simp only [Res.ok_bind]
  unfold rawKey
  constructor
  · intro h2
    simp [at', show 0 < l.length by omega, show ¬ l.length < 2 by omega, show l.length - 1 < l.length by omega,
      show l.length - 2 < l.length by omega]
  · intro h2
    cases l with
    | nil => simp [at']
    | cons a l =>
      have : l = [] := by cases l with
        | nil => rfl
        | cons _ _ => simp at h2; omega
      simp [at', this]

example : Lock.customKey ⟨true, b!"x", [], []⟩ 5 false = .panic := (key_defined rfl).2 (by decide)

/-- A key holds none of the six reserved bytes. -/
theorem key_clean {m : Lock} {magic : Byte} {full : Bool} {k : Bytes} (h : m.customKey magic full = .ok k) :
    ∀ b ∈ k, b ≠ 0 ∧ b ≠ 5 ∧ b ≠ 36 ∧ b ≠ 96 ∧ b ≠ 124 ∧ b ≠ 126 := by
  simp only [Lock.customKey, Res.bind_eq_ok, Res.pure_eq, Res.ok.injEq] at h
  obtain ⟨l, -, r, -, rfl⟩ := h
  intro b hb
  rcases mem_escWith hb with ⟨-, hn⟩ | ⟨x, -, v, hv, hm⟩
  · refine ⟨?_, ?_, ?_, ?_, ?_, ?_⟩ <;> rintro rfl <;> simp [keyReplace] at hn
  · unfold keyReplace at hv
    repeat' split at hv
    all_goals simp at hv
    all_goals
      subst hv
      clear hb
      revert b
      decide

example : ∃ k, Lock.customKey ⟨true, b!"aaa", [], []⟩ 5 false = .ok k ∧ ∀ b ∈ k, b ≠ 0 :=
  ⟨_, rfl, fun b hb => (key_clean (m := ⟨true, b!"aaa", [], []⟩) (magic := 5) (full := false) rfl b hb).1⟩

/-- Undoing the replacement gives the raw key back, unless the raw key itself holds `/%DCN`. -/
theorem key_unescape {m : Lock} {magic : Byte} {full : Bool} {k l r : Bytes} (h : m.customKey magic full = .ok k)
    (hl : m.lockString full = .ok l) (hr : rawKey magic l = .ok r) (hno : ¬ b!"/%DCN" <:+: r) : legacyReplace k = r := by
  simp only [Lock.customKey, hl, Res.ok_bind, hr, Res.pure_eq, Res.ok.injEq] at h
  rw [← h, legacyReplace_key hno]

example : ∃ k, Lock.customKey ⟨true, b!"aaa", [], []⟩ 5 false = .ok k ∧ legacyReplace k = [0x46, 0, 0] :=
  ⟨_, rfl, key_unescape (m := ⟨true, b!"aaa", [], []⟩) (magic := 5) (full := false) (l := b!"aaa") rfl rfl (by decide +kernel) (by decide)⟩

/-- Without the last hypothesis it is false: two different raw keys have the same replacement. -/
theorem key_ambiguous : ∃ r r' : Bytes, r ≠ r' ∧ escWith keyReplace r = escWith keyReplace r' :=
  ⟨b!"/%DCN000%/", [0], by decide, by decide⟩

/-- The raw key determines the lock. -/
theorem rawKey_injective {magic : Byte} {l l' k : Bytes} (h : rawKey magic l = .ok k) (h' : rawKey magic l' = .ok k) : l = l' := by
  obtain ⟨h2, hlen, hk⟩ := rawKey_spec h
  obtain ⟨h2', hlen', hk'⟩ := rawKey_spec h'
  have hll : l.length = l'.length := by omega
  -- the two locks differ by one constant
  have hd : ∀ i (hi : i < l.length) (hi' : i < l'.length),
      l'[i] = l[i] ^^^ (l[0]'(by omega) ^^^ l'[0]'(by omega)) := by
    intro i
    induction i with
    | zero =>
      intro hi hi'
      rw [← UInt8.xor_assoc, UInt8.xor_self, UInt8.zero_xor]
    | succ i ih =>
      intro hi hi'
      have e := hk (i + 1) (by omega) hi h2
      have e' := hk' (i + 1) (by omega) hi' h2'
      rw [e] at e'
      have e2 := swapNibbles_inj e'
      simp only [Nat.succ_ne_zero, if_false, Nat.add_sub_cancel] at e2
      have ih := ih (by omega) (by omega)
      have : l'[i + 1] = (l[i + 1] ^^^ l[i]) ^^^ l'[i] := by rw [e2, xor_cancel]
      rw [this, ih, ← UInt8.xor_assoc, xor_cancel]
  have e := hk 0 (by omega) (by omega) h2
  have e' := hk' 0 (by omega) (by omega) h2'
  rw [e] at e'
  have e2 := swapNibbles_inj e'
  simp only [if_true] at e2
  have q1 := hd (l.length - 1) (by omega) (by omega)
  have q2 := hd (l.length - 2) (by omega) (by omega)
  have i1 : l'.length - 1 = l.length - 1 := by omega
  have i2 : l'.length - 2 = l.length - 2 := by omega
  simp only [i1, i2] at e2
  rw [q1, q2] at e2
  have hx : ∀ a b c d m : Byte, a ^^^ c ^^^ d ^^^ m = b ^^^ (c ^^^ (a ^^^ b)) ^^^ (d ^^^ (a ^^^ b)) ^^^ m → a = b := by
    intro a b c d m h
    have h1 : a ^^^ c ^^^ d = b ^^^ (c ^^^ (a ^^^ b)) ^^^ (d ^^^ (a ^^^ b)) := by
      have := congrArg (· ^^^ m) h
      simpa only [xor_cancel] using this
    have h3 : b ^^^ (c ^^^ (a ^^^ b)) ^^^ (d ^^^ (a ^^^ b)) = b ^^^ c ^^^ d := by
      have : b ^^^ (c ^^^ (a ^^^ b)) ^^^ (d ^^^ (a ^^^ b)) = b ^^^ c ^^^ d ^^^ ((a ^^^ b) ^^^ (a ^^^ b)) := by
        simp only [UInt8.xor_assoc]
        congr 2
        simp only [← UInt8.xor_assoc]
        simp only [UInt8.xor_comm _ d]
        simp only [UInt8.xor_assoc]
      rw [this, UInt8.xor_self, UInt8.xor_zero]
    rw [h3] at h1
    have := congrArg (fun x => x ^^^ d ^^^ c) h1
    simpa only [xor_cancel] using this
  have h0 := hx _ _ _ _ _ e2
  apply List.ext_getElem hll
  intro i hi hi'
  have := hd i hi hi'
  rw [h0, UInt8.xor_self, UInt8.xor_zero] at this
  exact this.symm

example : ∃ k, rawKey 5 b!"EXTENDEDPROTOCOLabc" = .ok k ∧ ∀ l, rawKey 5 l = .ok k → l = b!"EXTENDEDPROTOCOLabc" :=
  ⟨_, rfl, fun _ hl => rawKey_injective hl rfl⟩

/-! ## C24 -/

/-- OpList and BotList come back unchanged, in order. Only the list with one empty name does not. -/
theorem names_roundtrip [HtmlEntities] {enc dec : Codec} (hl : Lossless enc dec) {ns : List Bytes} {w : Bytes}
    (hok : ∀ n ∈ ns, NameOk enc n) (hone : ∀ n, ns = [n] → Name.marshal enc n ≠ .ok [])
    (h : Names.marshal enc ns = .ok w) : Names.unmarshal dec w = .ok ns := by
  unfold Names.marshal at h
  by_cases hne : ns = []
  · subst hne
    simp at h
    subst h
    rfl
  · rw [if_neg hne] at h
    obtain ⟨ws, h2, rfl⟩ := marshalAll_ok h
    have hws : ws ≠ [] := by rintro rfl; have := h2.length; simp at this; exact hne this
    unfold Names.unmarshal
    rw [joinDD_append hws, trimSuffix_append]
    simp only
    rw [if_neg, splitDD_join hws]
    · exact unmarshalAll_ok (h2.imp fun n hn x hx => name_roundtrip hl (hok n hn) hx)
    · intro p hp hd
      obtain ⟨n, -, hn⟩ := h2.right p hp
      exact (name_marshal_clean hn _ hd).1 rfl
    · intro h0
      have h0 : joinDD ws = [] := by simpa using h0
      rcases joinDD_nil h0 with rfl | rfl
      · exact hws rfl
      · cases h2 with
        | cons hx hs =>
          cases hs
          exact hone _ rfl hx

example : ∃ w, Names.marshal none [b!"a", [], b!"b $"] = .err (.other 12) ∧ Names.marshal none [b!"a b", [], b!"b|"] = .ok w ∧
    Names.unmarshal none w = .ok [b!"a b", [], b!"b|"] := by
  refine ⟨_, rfl, rfl, names_roundtrip lossless_nil ?_ (by simp) rfl⟩
  simp only [List.mem_cons, List.not_mem_nil, or_false, forall_eq_or_imp, forall_eq]
  exact ⟨nameOk_of (by decide +kernel), nameOk_of (by decide +kernel), nameOk_of (by decide +kernel)⟩

/-- One empty name is read as no name. -/
theorem names_one_empty : ∃ w, Names.marshal none [[]] = .ok w ∧ Names.unmarshal none w = .ok [] := ⟨_, rfl, by decide⟩

/-- UserIP comes back unchanged, in order. -/
theorem userIP_roundtrip [HtmlEntities] {enc dec : Codec} (hl : Lossless enc dec) {l : List UserAddress} {w : Bytes}
    (hne : l ≠ []) (hok : ∀ a ∈ l, NameOk enc a.name ∧ c!"$" ∉ a.ip ∧ c!" " ∉ a.ip)
    (h : UserIP.marshal enc l = .ok w) : UserIP.unmarshal dec w = .ok l := by
  obtain ⟨ws, h2, rfl⟩ := userIP_marshal_ok h
  have hws : ws ≠ [] := by rintro rfl; have := h2.length; simp at this; exact hne this
  unfold UserIP.unmarshal
  rw [joinDD_append hws, trimSuffix_ne (suf := b!"\r"), trimSuffix_append, splitDD_join hws]
  · refine userIP_entries_ok (h2.imp fun a ha x hx => ?_)
    obtain ⟨n, hn, rfl⟩ := hx
    obtain ⟨h1, -, h3⟩ := hok a ha
    have e : n ++ b!" " ++ a.ip = n ++ c!" " :: a.ip := by simp
    unfold UserIP.entry
    rw [e, lastIndexByte_append h3]
    simp [name_roundtrip hl h1 hn]
  · intro p hp hd
    obtain ⟨a, ha, n, hn, rfl⟩ := h2.right p hp
    simp only [List.mem_append, List.mem_singleton] at hd
    rcases hd with (hd | hd) | hd
    · exact (name_marshal_clean hn _ hd).1 rfl
    · exact absurd hd (by decide)
    · exact (hok a ha).2.1 hd
  · rintro ⟨t, ht⟩
    have := congrArg List.getLast? ht
    simp [dd] at this

example : ∃ w, UserIP.marshal none [⟨b!"a b", b!"10.0.0.1"⟩, ⟨b!"c", []⟩] = .ok w ∧
    UserIP.unmarshal none w = .ok [⟨b!"a b", b!"10.0.0.1"⟩, ⟨b!"c", []⟩] := by
  refine ⟨_, rfl, userIP_roundtrip lossless_nil (by simp) ?_ rfl⟩
  simp only [List.mem_cons, List.not_mem_nil, or_false, forall_eq_or_imp, forall_eq]
  exact ⟨⟨nameOk_of (by decide +kernel), by decide⟩, nameOk_of (by decide +kernel), by decide⟩

/-- The empty list is read as one user without name. -/
theorem userIP_empty : ∃ w, UserIP.marshal none [] = .ok w ∧ UserIP.unmarshal none w = .ok [{}] := ⟨_, rfl, by decide⟩

/-! ## C25 -/

theorem cutSpace_append {a b : Bytes} (h : c!" " ∉ a) : cutSpace (a ++ c!" " :: b) = .ok (a, b) := by
  simp [cutSpace, indexByte_append h]

theorem cutSpaceOpt_append {a b : Bytes} (h : c!" " ∉ a) : cutSpaceOpt (a ++ c!" " :: b) = .ok (a, b) := by
  simp [cutSpaceOpt, indexByte_append h]

theorem cutSpaceOpt_all {a : Bytes} (h : c!" " ∉ a) : cutSpaceOpt a = .ok (a, []) := by
  simp [cutSpaceOpt, indexByte_none.mpr h]

theorem itoa_nonneg (n : Nat) : itoa (n : Int) = utoa n := rfl

theorem itoa_no_space (k : Int) : c!" " ∉ itoa k := by
  intro hk
  rcases itoa_bytes hk with h | h
  · exact absurd h (by decide)
  · exact absurd h (by decide)

/-- ADCGET comes back unchanged, with 64-bit positions and lengths. -/
theorem adcGet_roundtrip [HtmlEntities] {enc dec : Codec} (hl : Lossless enc dec) {m : ADCGet} {w : Bytes}
    (htext : TextOk enc m.contentType ∧ TextOk enc m.identifier)
    (hsep : ∀ s ∈ [m.contentType, m.identifier], ∀ t, Str.marshal enc s = .ok t → c!" " ∉ t)
    (hstart : m.start < 2 ^ 64) (hlen : -1 ≤ m.length ∧ m.length < 2 ^ 63) (hdown : ∀ n, m.downloaded = some n → n < 2 ^ 64)
    (h : m.marshal enc = .ok w) : ADCGet.unmarshal dec {} w = .ok m := by
  obtain ⟨ct, ident, start, len, comp, down⟩ := m
  simp only [ADCGet.marshal, Res.bind_eq_ok, Res.pure_eq, Res.ok.injEq] at h
  simp only [List.mem_cons, List.not_mem_nil, or_false, forall_eq_or_imp, forall_eq] at htext hsep hstart hlen hdown
  obtain ⟨a, ha, b, hb, rfl⟩ := h
  have nsp : ∀ n, c!" " ∉ utoa n := fun n => utoa_no (by decide)
  -- the length
  have hL : (if itoa len = b!"-1" then (pure (-1 : Int) : Res Int) else do
      let n ← mapErr (parseUin64Trim (itoa len)) (.other 44)
      pure (toI64 n)) = .ok len := by
    by_cases h1 : len = -1
    · subst h1; decide +kernel
    · obtain ⟨n, rfl⟩ : ∃ n : Nat, len = n := ⟨len.toNat, by omega⟩
      have hne : itoa (n : Int) ≠ b!"-1" := by
        intro h'
        have : c!"-" ∈ utoa n := by rw [← itoa_nonneg, h']; decide
        exact absurd (utoa_digit this) (by decide)
      rw [if_neg hne, itoa_nonneg, NmdcNumbers.number_roundtrip (by omega)]
      simp [mapErr, toI64]
      omega
  generalize htail : (if comp then b!" ZL1" else []) ++
    ADCGet.downText down = tail
  have hcut : ∃ rest, cutSpaceOpt (itoa len ++ tail) = .ok (itoa len, rest) ∧
      ∀ m0 : ADCGet, m0.compressed = false → m0.downloaded = none →
        adcGetFlags (split rest c!" ") m0 = .ok { m0 with compressed := comp, downloaded := down } := by
    have hdb : ∀ n, hasPrefix (c!"D" :: c!"B" :: utoa n) b!"DB" = true := by
      intro n; rw [hasPrefix_iff]; exact ⟨utoa n, rfl⟩
    have hsl : ∀ n, sliceFrom (c!"D" :: c!"B" :: utoa n) 2 = .ok (utoa n) := by
      intro n; simpa using sliceFrom_append b!"DB" (utoa n)
    have hne : ∀ n, (c!"D" :: c!"B" :: utoa n) ≠ b!"ZL1" := by simp
    cases comp with
    | false =>
      cases down with
      | none =>
        simp [ADCGet.downText] at htail
        subst htail
        refine ⟨[], by simpa using cutSpaceOpt_all (itoa_no_space len), ?_⟩
        intro m0 h1 h2
        obtain ⟨_, _, _, _, _, _⟩ := m0
        simp only at h1 h2
        subst h1; subst h2
        simp [split, adcGetFlags, hasPrefix]
      | some n =>
        simp [ADCGet.downText] at htail
        subst htail
        refine ⟨_, cutSpaceOpt_append (itoa_no_space len), ?_⟩
        intro m0 h1 h2
        obtain ⟨_, _, _, _, _, _⟩ := m0
        simp only at h1 h2
        subst h1; subst h2
        have : c!" " ∉ c!"D" :: c!"B" :: utoa n := by simp [nsp n]
        rw [split_of_not_mem this]
        simp [adcGetFlags, hdb, hsl, NmdcNumbers.number_roundtrip (hdown n rfl), mapErr]
    | true =>
      cases down with
      | none =>
        simp [ADCGet.downText] at htail
        subst htail
        refine ⟨_, cutSpaceOpt_append (itoa_no_space len), ?_⟩
        intro m0 h1 h2
        obtain ⟨_, _, _, _, _, _⟩ := m0
        simp only at h1 h2
        subst h1; subst h2
        simp [split, adcGetFlags]
      | some n =>
        simp [ADCGet.downText] at htail
        subst htail
        refine ⟨_, cutSpaceOpt_append (itoa_no_space len), ?_⟩
        intro m0 h1 h2
        obtain ⟨_, _, _, _, _, _⟩ := m0
        simp only at h1 h2
        subst h1; subst h2
        have h3 : c!" " ∉ c!"D" :: c!"B" :: utoa n := by simp [nsp n]
        have e : c!"Z" :: c!"L" :: c!"1" :: c!" " :: c!"D" :: c!"B" :: utoa n = b!"ZL1" ++ c!" " :: (c!"D" :: c!"B" :: utoa n) := rfl
        rw [e, split_append (by decide), split_of_not_mem h3]
        simp [adcGetFlags, hdb, hsl, NmdcNumbers.number_roundtrip (hdown n rfl), mapErr]
  obtain ⟨rest, hc, hf⟩ := hcut
  have e : a ++ b!" " ++ b ++ b!" " ++ utoa start ++ b!" " ++ itoa len ++ (if comp = true then b!" ZL1" else []) ++ ADCGet.downText down = a ++ c!" " :: (b ++ c!" " :: (utoa start ++ c!" " :: (itoa len ++ tail))) := by
    rw [← htail]; simp
  rw [e]
  unfold ADCGet.unmarshal
  rw [cutSpace_append (hsep.1 a ha)]
  simp only [Res.ok_bind, str_roundtrip hl htext.1 ha]
  rw [cutSpace_append (hsep.2 b hb)]
  simp only [Res.ok_bind, str_roundtrip hl htext.2 hb, mapErr]
  rw [cutSpace_append (nsp start)]
  simp only [Res.ok_bind, NmdcNumbers.number_roundtrip hstart]
  rw [hc]
  simp only [Res.ok_bind]
  simp only [mapErr] at hL
  by_cases h1 : itoa len = b!"-1"
  · rw [if_pos h1] at hL ⊢
    simp only [Res.pure_eq, Res.ok.injEq] at hL
    subst hL
    simp only [Res.pure_eq, Res.ok_bind]
    exact hf _ rfl rfl
  · rw [if_neg h1] at hL ⊢
    obtain ⟨n, hn1, hn2⟩ := Res.bind_eq_ok.mp hL
    simp only [Res.pure_eq, Res.ok.injEq] at hn2
    rw [hn1]
    simp only [Res.ok_bind, Res.pure_eq, hn2]
    exact hf _ rfl rfl

example : ∃ w, ADCGet.marshal none ⟨b!"file", b!"TTH/ABC", 18446744073709551615, -1, true, some 7⟩ = .ok w ∧
    ADCGet.unmarshal none {} w = .ok ⟨b!"file", b!"TTH/ABC", 18446744073709551615, -1, true, some 7⟩ := by
  refine ⟨_, rfl, adcGet_roundtrip lossless_nil ⟨textOk_of (by decide +kernel), textOk_of (by decide +kernel)⟩ ?_
    (by decide) (by decide) (by simp) rfl⟩
  simp only [List.mem_cons, List.not_mem_nil, or_false, forall_eq_or_imp, forall_eq]
  exact ⟨by intro t ht; cases ht; decide, by intro t ht; cases ht; decide⟩

/-- A length that does not fit in an `int64` wraps around instead of being refused. -/
theorem adcGet_length_wraps :
    ADCGet.unmarshal none {} b!"file x 0 18446744073709551614" = .ok ⟨b!"file", b!"x", 0, -2, false, none⟩ := by
  decide +kernel

/-- ADCSND comes back unchanged. -/
theorem adcSnd_roundtrip [HtmlEntities] {enc dec : Codec} (hl : Lossless enc dec) {m : ADCSnd} {w : Bytes}
    (htext : TextOk enc m.contentType ∧ TextOk enc m.identifier)
    (hsep : ∀ s ∈ [m.contentType, m.identifier], ∀ t, Str.marshal enc s = .ok t → c!" " ∉ t)
    (hstart : m.start < 2 ^ 64) (hlen : m.length < 2 ^ 64)
    (h : m.marshal enc = .ok w) : ADCSnd.unmarshal dec {} w = .ok m := by
  obtain ⟨ct, ident, start, len, comp⟩ := m
  simp only [ADCSnd.marshal, Res.bind_eq_ok, Res.pure_eq, Res.ok.injEq] at h
  simp only [List.mem_cons, List.not_mem_nil, or_false, forall_eq_or_imp, forall_eq] at htext hsep hstart hlen
  obtain ⟨a, ha, b, hb, rfl⟩ := h
  have nsp : ∀ n, c!" " ∉ utoa n := fun n => utoa_no (by decide)
  have e : a ++ b!" " ++ b ++ b!" " ++ utoa start ++ b!" " ++ utoa len ++ (if comp = true then b!" ZL1" else []) =
      a ++ c!" " :: (b ++ c!" " :: (utoa start ++ c!" " :: (utoa len ++ (if comp = true then b!" ZL1" else [])))) := by simp
  rw [e]
  unfold ADCSnd.unmarshal
  rw [cutSpace_append (hsep.1 a ha)]
  simp only [Res.ok_bind, str_roundtrip hl htext.1 ha]
  rw [cutSpace_append (hsep.2 b hb)]
  simp only [Res.ok_bind, str_roundtrip hl htext.2 hb, mapErr]
  rw [cutSpace_append (nsp start)]
  simp only [Res.ok_bind, NmdcNumbers.number_roundtrip hstart]
  cases comp with
  | true =>
    simp only [if_true]
    rw [cutSpaceOpt_append (nsp len)]
    simp [NmdcNumbers.number_roundtrip hlen]
  | false =>
    simp only [Bool.false_eq_true, if_false, List.append_nil]
    rw [cutSpaceOpt_all (nsp len)]
    simp [NmdcNumbers.number_roundtrip hlen]

example : ∃ w, ADCSnd.marshal none ⟨b!"file", b!"TTH/ABC", 1, 18446744073709551615, true⟩ = .ok w ∧
    ADCSnd.unmarshal none {} w = .ok ⟨b!"file", b!"TTH/ABC", 1, 18446744073709551615, true⟩ := by
  refine ⟨_, rfl, adcSnd_roundtrip lossless_nil ⟨textOk_of (by decide +kernel), textOk_of (by decide +kernel)⟩ ?_
    (by decide) (by decide) rfl⟩
  simp only [List.mem_cons, List.not_mem_nil, or_false, forall_eq_or_imp, forall_eq]
  exact ⟨by intro t ht; cases ht; decide, by intro t ht; cases ht; decide⟩

/-- Direction comes back unchanged for the numbers the protocol allows. -/
theorem direction_roundtrip {m : Direction} {w : Bytes} (hn : 1 ≤ m.number ∧ m.number ≤ 32767)
    (h : m.marshal = .ok w) : Direction.unmarshal w = .ok m := by
  obtain ⟨up, n⟩ := m
  simp only at hn
  simp only [Direction.marshal, Res.ok.injEq] at h
  have hti : toI64 n = (n : Int) := by unfold toI64; omega
  rw [hti, itoa_nonneg] at h
  subst h
  cases up with
  | true =>
    have e : (if true = true then b!"Upload" else b!"Download") ++ b!" " ++ utoa n = b!"Upload" ++ c!" " :: utoa n := by simp
    rw [e]
    unfold Direction.unmarshal
    rw [cutSpace_append (by decide)]
    simp [NmdcNumbers.number_roundtrip (show n < 2 ^ 64 by omega), mapErr]
    omega
  | false =>
    have e : (if false = true then b!"Upload" else b!"Download") ++ b!" " ++ utoa n = b!"Download" ++ c!" " :: utoa n := by simp
    rw [e]
    unfold Direction.unmarshal
    rw [cutSpace_append (by decide)]
    simp [NmdcNumbers.number_roundtrip (show n < 2 ^ 64 by omega), mapErr]
    omega

example : ∃ w, Direction.marshal ⟨true, 32767⟩ = .ok w ∧ Direction.unmarshal w = .ok ⟨true, 32767⟩ :=
  ⟨_, rfl, direction_roundtrip (by decide) rfl⟩

/-- The decoder refuses any other number. -/
theorem direction_range {w : Bytes} {m : Direction} (h : Direction.unmarshal w = .ok m) : 1 ≤ m.number ∧ m.number ≤ 32767 := by
  simp only [Direction.unmarshal, Res.bind_eq_ok] at h
  obtain ⟨p, -, h⟩ := h
  have key : ∀ up : Bool, (do
      let n ← mapErr (parseUin64Trim p.2) (.other 47)
      if n < 1 ∨ n > 32767 then .err (.other 48) else pure { upload := up, number := n } : Res Direction) = .ok m →
      1 ≤ m.number ∧ m.number ≤ 32767 := by
    intro up h
    obtain ⟨n, -, h⟩ := Res.bind_eq_ok.mp h
    split at h
    · cases h
    · simp only [Res.pure_eq, Res.ok.injEq] at h
      subst h
      simp; omega
  split at h
  · exact key _ h
  · split at h
    · exact key _ h
    · cases h

example : Direction.unmarshal b!"Upload 32768" = .err (.other 48) := by decide +kernel

end Verif.Props.NmdcSimple
