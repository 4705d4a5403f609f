import Verif.Nmdc.SearchLemmas

/-!
# Searches and search results (C26, C27, C28)
-/

namespace Verif.Props.NmdcSearch

open Verif.Go Verif.Spec Verif.Nmdc Verif.Tiger

attribute [local instance] basicEntities

/-- What a search means once it went over the wire: a search from an address has no user; without a size restriction the
comparison is 'at most'; type 0 is 'any' (1); a hash search (9) has no pattern and any other no hash; a dollar in a
pattern is a space. -/
def normal (m : Search) : Search where
  address := m.address
  user := if m.address = [] then m.user else []
  sizeRestricted := m.sizeRestricted
  isMaxSize := !m.sizeRestricted || m.isMaxSize
  size := m.size
  dataType := if m.dataType = 0 then 1 else m.dataType
  pattern := if m.dataType = 9 then [] else m.pattern.map (fun c => if c = c!"$" then c!" " else c)
  tth := if m.dataType = 9 then m.tth else none

/-- C26. -/
theorem search_roundtrip [HtmlEntities] {enc dec : Codec} (hl : Lossless enc dec) (hsw : AsciiSwap enc dec) {m : Search}
    {w : Bytes} (haddr : c!" " ∉ m.address) (hhub : ¬ b!"Hub:" <+: m.address)
    (huser : m.address = [] → NameOk enc m.user ∧ ∀ n, Name.marshal enc m.user = .ok n → c!" " ∉ n)
    (hsize : m.size < 2 ^ 64) (htyp : m.dataType < 2 ^ 64) (hpat : m.dataType ≠ 9 → TextOk enc m.pattern)
    (h : m.marshal enc = .ok w) : Search.unmarshal dec {} w = .ok (normal m) := by
  simp only [Search.marshal, Res.bind_eq_ok, Res.pure_eq, Res.ok.injEq] at h
  obtain ⟨who, hwho, what, hwhat, rfl⟩ := h
  generalize ht : (if m.dataType = 0 then 1 else m.dataType) = typ
  have htyp' : typ < 2 ^ 64 := by rw [← ht]; split <;> omega
  have h9 : typ = 9 ↔ m.dataType = 9 := by rw [← ht]; split <;> omega
  have nq : ∀ n, c!"?" ∉ utoa n := fun n => utoa_no (by decide)
  -- the part after the space
  have hstr : ∀ m0 : Search, m0.pattern = [] → m0.tth = none →
      Search.unmarshalString dec m0 (m.flags ++ b!"?" ++ utoa m.size ++ b!"?" ++ utoa typ ++ b!"?" ++ what) =
      .ok { m0 with sizeRestricted := m.sizeRestricted, isMaxSize := !m.sizeRestricted || m.isMaxSize, size := m.size,
                    dataType := typ, pattern := (normal m).pattern, tth := (normal m).tth } := by
    intro m0 hp0 ht0
    have hsz : Search.sizeField m0.size (utoa m.size) = .ok (false, m.size) := by
      obtain ⟨b, t, e⟩ := List.exists_cons_of_ne_nil (utoa_ne_nil m.size)
      have hb : IsDigit b := utoa_digit (n := m.size) (by rw [e]; simp)
      have hb' : b ≠ c!"-" := by rintro rfl; exact absurd hb (by decide)
      have hn := NmdcNumbers.number_roundtrip hsize
      rw [e] at hn ⊢
      simp [Search.sizeField, hb', hn]
    have htgt : Search.target dec m0 typ what = .ok ((normal m).pattern, (normal m).tth) := by
      unfold Search.target Search.what at *
      by_cases h9' : m.dataType = 9
      · rw [if_pos h9'] at hwhat
        rw [if_pos (h9.mpr h9')]
        cases htth : m.tth with
        | none => rw [htth] at hwhat; cases hwhat
        | some hsh =>
          rw [htth] at hwhat
          cases hwhat
          have hpre : hasPrefix (b!"TTH:" ++ hsh.base32) b!"TTH:" = true := by
            rw [hasPrefix_iff]; exact List.prefix_append _ _
          have hslice : sliceFrom (b!"TTH:" ++ hsh.base32) 4 = .ok hsh.base32 := sliceFrom_append b!"TTH:" hsh.base32
          have hlast : hsh.base32.getLast? ≠ some c!"$" := by
            intro h'
            exact alpha_no (by decide) (List.mem_of_getLast? h')
          rw [if_pos hpre, hslice]
          simp only [Res.ok_bind]
          rw [if_neg hlast, Hash.unmarshal_base32]
          simp [normal, h9', htth, hp0]
      · rw [if_neg h9'] at hwhat
        rw [if_neg (fun h' => h9' (h9.mp h'))]
        simp only [Res.bind_eq_ok, Res.ok.injEq] at hwhat
        obtain ⟨p, hp, rfl⟩ := hwhat
        rw [pattern_roundtrip hsw (hpat h9') hp]
        simp only [Res.ok_bind, replace_back, normal, h9', if_false, ht0]
        rfl
    have hsplit : ∃ f0 f1, splitMax (m.flags ++ b!"?" ++ utoa m.size ++ b!"?" ++ utoa typ ++ b!"?" ++ what) c!"?" 5 =
        [f0, f1, utoa m.size, utoa typ, what] ∧ boolFlag f0 = .ok m.sizeRestricted ∧
        boolFlag f1 = .ok (!m.sizeRestricted || m.isMaxSize) := by
      have hfl : ∃ f0 f1, m.flags = f0 ++ c!"?" :: f1 ∧ c!"?" ∉ f0 ∧ c!"?" ∉ f1 ∧ boolFlag f0 = .ok m.sizeRestricted ∧
          boolFlag f1 = .ok (!m.sizeRestricted || m.isMaxSize) := by
        unfold Search.flags
        cases m.sizeRestricted with
        | false => exact ⟨b!"F", b!"T", rfl, by decide, by decide, rfl, rfl⟩
        | true =>
          cases m.isMaxSize with
          | false => exact ⟨b!"T", b!"F", rfl, by decide, by decide, rfl, rfl⟩
          | true => exact ⟨b!"T", b!"T", rfl, by decide, by decide, rfl, rfl⟩
      obtain ⟨f0, f1, e, h0, h1, g0, g1⟩ := hfl
      refine ⟨f0, f1, ?_, g0, g1⟩
      have e' : m.flags ++ b!"?" ++ utoa m.size ++ b!"?" ++ utoa typ ++ b!"?" ++ what =
          f0 ++ c!"?" :: (f1 ++ c!"?" :: (utoa m.size ++ c!"?" :: (utoa typ ++ c!"?" :: what))) := by rw [e]; simp
      rw [e', splitMax_append h0, splitMax_append h1, splitMax_append (nq _), splitMax_append (nq _)]
      rfl
    obtain ⟨f0, f1, hsplit, g0, g1⟩ := hsplit
    unfold Search.unmarshalString
    rw [hsplit]
    simp only [g0, g1, hsz, NmdcNumbers.number_roundtrip htyp', htgt, Res.ok_bind, Res.pure_eq, Bool.not_false, Bool.and_true]
  have e : who ++ b!" " ++ m.flags ++ b!"?" ++ utoa m.size ++ b!"?" ++ utoa typ ++ b!"?" ++ what =
      who ++ c!" " :: (m.flags ++ b!"?" ++ utoa m.size ++ b!"?" ++ utoa typ ++ b!"?" ++ what) := by simp
  rw [e]
  unfold Search.unmarshal
  unfold Search.who at hwho
  by_cases ha : m.address = []
  · rw [if_neg (by simpa using ha)] at hwho
    simp only [Res.bind_eq_ok, Res.ok.injEq] at hwho
    obtain ⟨n, hn, rfl⟩ := hwho
    obtain ⟨u1, u2⟩ := huser ha
    have hns : c!" " ∉ b!"Hub:" ++ n := by
      intro h'
      rcases List.mem_append.mp h' with h' | h'
      · exact absurd h' (by decide)
      · exact u2 n hn h'
    have hpre : hasPrefix (b!"Hub:" ++ n) b!"Hub:" = true := by rw [hasPrefix_iff]; exact List.prefix_append _ _
    have hslice : sliceFrom (b!"Hub:" ++ n) 4 = .ok n := sliceFrom_append b!"Hub:" n
    rw [indexByte_append hns]
    simp only [List.take_left, sliceFrom_append', Res.ok_bind]
    rw [if_pos hpre, hslice]
    simp only [Res.ok_bind, name_roundtrip hl u1 hn]
    rw [hstr _ rfl rfl]
    simp [normal, ha, ht]
  · rw [if_pos ha] at hwho
    cases hwho
    have hpre : hasPrefix m.address b!"Hub:" = false := by
      rw [Bool.eq_false_iff]; intro h'; rw [hasPrefix_iff] at h'; exact hhub h'
    rw [indexByte_append haddr]
    simp only [List.take_left, sliceFrom_append', Res.ok_bind, hpre, Bool.false_eq_true, if_false]
    rw [hstr _ rfl rfl]
    simp [normal, ha, ht]

example : ∃ w, Search.marshal none { user := b!"a&b", sizeRestricted := true, size := 1024, pattern := b!"big file $1 | x" } = .ok w ∧
    Search.unmarshal none {} w =
      .ok { user := b!"a&b", sizeRestricted := true, size := 1024, dataType := 1, pattern := b!"big file  1 | x" } :=
  ⟨_, rfl, search_roundtrip (m := { user := b!"a&b", sizeRestricted := true, size := 1024, pattern := b!"big file $1 | x" })
    lossless_nil asciiSwap_nil (by decide) (by decide) (fun _ => ⟨nameOk_of (by decide +kernel), by intro n hn; cases hn; decide⟩) (by decide) (by decide)
    (fun _ => textOk_of (by decide +kernel)) rfl⟩

example : ∃ w, Search.marshal none { address := b!"10.0.0.1:412", dataType := 9, tth := some .zero } = .ok w ∧
    Search.unmarshal none {} w = .ok { address := b!"10.0.0.1:412", isMaxSize := true, dataType := 9, tth := some .zero } :=
  ⟨_, rfl, search_roundtrip (m := { address := b!"10.0.0.1:412", dataType := 9, tth := some .zero })
    lossless_nil asciiSwap_nil (by decide) (by decide) (by simp) (by decide) (by decide) (by simp) rfl⟩

/-- A search in normal form, i.e. one that can come out of a decoder, is unchanged. -/
theorem search_fixpoint {m : Search} (h1 : m.address = [] ∨ m.user = []) (h2 : m.sizeRestricted = false → m.isMaxSize = true)
    (h3 : m.dataType ≠ 0) (h4 : m.dataType = 9 → m.pattern = []) (h5 : m.dataType ≠ 9 → m.tth = none ∧ c!"$" ∉ m.pattern) :
    normal m = m := by
  obtain ⟨a, u, r, x, s, d, p, t⟩ := m
  simp only at h1 h2 h3 h4 h5
  have e1 : (if a = [] then u else []) = u := by
    rcases h1 with h | h <;> simp [h]
  have e2 : (!r || x) = x := by
    cases r with
    | false => simp [h2 rfl]
    | true => simp
  have e4 : (if d = 9 then [] else p.map (fun c => if c = c!"$" then c!" " else c)) = p := by
    by_cases h : d = 9
    · rw [if_pos h, h4 h]
    · rw [if_neg h]; exact replaceByte_id (h5 h).2
  have e5 : (if d = 9 then t else none) = t := by
    by_cases h : d = 9
    · rw [if_pos h]
    · rw [if_neg h, (h5 h).1]
  simp only [normal, e1, e2, h3, e4, e5, if_false]

example : normal { user := b!"a", isMaxSize := true, dataType := 1, pattern := b!"x y" } =
    { user := b!"a", isMaxSize := true, dataType := 1, pattern := b!"x y" } :=
  search_fixpoint (by decide) (by decide) (by decide) (by decide) (by decide)

/-! ## C27 -/

theorem strAll_self [HtmlEntities] {enc : Codec} {path ws : List Bytes} (hp : ∀ p ∈ path, Str.marshal enc p = .ok p)
    (h : strAll enc path = .ok ws) : ws = path := by
  have := strAll_ok h
  clear h
  induction this with
  | nil => rfl
  | cons hx _ ih =>
    rw [hp _ (by simp)] at hx
    cases hx
    rw [ih (fun p h => hp p (by simp [h]))]

/-- Search results come back unchanged. The decoder hands out the raw bytes of the path, so its elements must be their
own encoding. A file path must not look like a directory result. -/
theorem sr_roundtrip [HtmlEntities] {enc dec : Codec} (hl : Lossless enc dec) (hnil : dec.run [] = .ok []) {m : SR} {w : Bytes}
    (hsrc : NameOk enc m.src ∧ ∀ n, Name.marshal enc m.src = .ok n → c!" " ∉ n)
    (hpath : ∀ p ∈ m.path, Str.marshal enc p = .ok p ∧ c!"\\" ∉ p ∧ (5 : Byte) ∉ p)
    (hacc : ∃ t, Str.unmarshal dec (join m.path c!"\\") = .ok t)
    (hdir : m.isDir = true → m.size = 0 ∧ 0 ≤ m.freeSlots ∧ 0 ≤ m.totalSlots)
    (hfile : m.isDir = false →
      (∀ a b, join m.path c!"\\" = a ++ c!"/" :: b → ∃ c ∈ b, ¬ (c = c!"/" ∨ IsDigit c)) ∨
        ∀ c ∈ join m.path c!"\\", c = c!"/" ∨ IsDigit c)
    (hsize : m.size < 2 ^ 64) (hslots : ∀ k ∈ [m.freeSlots, m.totalSlots], -(2 ^ 63 : Int) ≤ k ∧ k < 2 ^ 63)
    (hhub : m.tth = none → TextOk enc m.hubName ∧
      ∀ n, Str.marshal enc m.hubName = .ok n → ¬ b!" (" <:+: n ∧ ¬ b!"TTH:" <+: n ++ b!" (")
    (htth : m.tth ≠ none → m.hubName = []) (haddr : c!")" ∉ m.hubAddress) (hdst : m.dst ≠ [] → NameOk enc m.dst)
    (h : m.marshal enc = .ok w) : SR.unmarshal dec {} w = .ok m := by
  obtain ⟨src, path, isDir, size, free, total, hub, tth, addr, dst⟩ := m
  simp only at hsrc hpath hacc hdir hfile hsize hhub htth haddr hdst
  simp only [List.mem_cons, List.not_mem_nil, or_false, forall_eq_or_imp, forall_eq] at hslots
  unfold SR.marshal at h
  obtain ⟨s, hs, h⟩ := Res.bind_eq_ok.mp h
  simp only at hs h
  split at h
  · cases h
  rename_i hne
  simp only [Res.bind_eq_ok, Res.pure_eq, Res.ok.injEq] at h
  obtain ⟨ws, hws, name, hname, to, hto, rfl⟩ := h
  have hws' : ws = path := strAll_self (fun p hp => (hpath p hp).1) hws
  subst hws'
  generalize hjp : join ws c!"\\" = jp at hacc hfile
  have hsplit : split jp c!"\\" = ws := by rw [← hjp]; exact split_join hne (fun p hp => (hpath p hp).2.1)
  have h5 : (5 : Byte) ∉ jp := by
    have hj : ∀ (ps : List Bytes), (∀ p ∈ ps, (5 : Byte) ∉ p) → (5 : Byte) ∉ join ps c!"\\" := by
      intro ps
      induction ps with
      | nil => intro _; simp [join]
      | cons p ps ih =>
        intro hp
        cases ps with
        | nil => simpa [join] using hp
        | cons q ps =>
          rw [join_cons2]
          intro hm
          simp only [List.mem_append, List.mem_cons] at hm
          rcases hm with hm | hm | hm
          · exact hp p (by simp) hm
          · exact absurd hm (by decide)
          · exact ih (fun x hx => hp x (by simp [hx])) hm
    rw [← hjp]; exact hj ws (fun p hp => (hpath p hp).2.2)
  -- slots
  have inot : ∀ (k : Int) (c : Byte), ¬ IsDigit c → c ≠ c!"-" → c ∉ itoa k := by
    intro k c h1 h2 hm
    rcases itoa_bytes hm with h | h
    · exact h1 h
    · exact h2 h
  have hslot : SR.parseSlots (itoa free ++ c!"/" :: itoa total) = .ok (free, total) := by
    unfold SR.parseSlots
    rw [indexByte_append (inot _ _ (by decide) (by decide))]
    simp only [List.take_left, sliceFrom_append', Res.ok_bind, NmdcNumbers.int_roundtrip hslots.1.1 hslots.1.2,
      NmdcNumbers.int_roundtrip hslots.2.1 hslots.2.2]
  have h5s : (5 : Byte) ∉ itoa free ++ c!"/" :: itoa total := by
    intro hm
    simp only [List.mem_append, List.mem_cons] at hm
    rcases hm with hm | hm | hm
    · exact inot _ _ (by decide) (by decide) hm
    · exact absurd hm (by decide)
    · exact inot _ _ (by decide) (by decide) hm
  -- hash or hub name
  generalize hrest : addr ++ c!")" :: to = rest
  have hsource : ∀ m0 : SR, m0.hubName = [] → m0.tth = none →
      SR.parseSource dec m0 (name ++ b!" (" ++ rest) = .ok (hub, tth, rest) := by
    intro m0 hm1 hm2
    unfold SR.source at hname
    simp only at hname
    unfold SR.parseSource
    cases htt : tth with
    | some hh =>
      rw [htt] at hname
      cases hname
      have hb : hub = [] := htth (by simp [htt])
      have hpre : hasPrefix (b!"TTH:" ++ hh.base32 ++ b!" (" ++ rest) b!"TTH:" = true := by
        rw [hasPrefix_iff, List.append_assoc, List.append_assoc]; exact List.prefix_append _ _
      have hslice : sliceFrom (b!"TTH:" ++ hh.base32 ++ b!" (" ++ rest) 4 = .ok (hh.base32 ++ b!" (" ++ rest) := by
        rw [List.append_assoc, List.append_assoc]
        simpa using sliceFrom_append b!"TTH:" (hh.base32 ++ (b!" (" ++ rest))
      have hlen := hh.base32_length
      rw [if_pos hpre, hslice]
      simp only [Res.ok_bind]
      rw [if_neg (by simp; omega)]
      have a1 : at' (hh.base32 ++ b!" (" ++ rest) 39 = .ok c!" " := by
        unfold at'
        rw [List.append_assoc, List.getElem?_append_right (by omega), hlen]
        rfl
      have a2 : at' (hh.base32 ++ b!" (" ++ rest) 40 = .ok c!"(" := by
        unfold at'
        rw [List.append_assoc, List.getElem?_append_right (by omega), hlen]
        rfl
      have a3 : sliceFrom (hh.base32 ++ b!" (" ++ rest) 41 = .ok rest := by
        have := sliceFrom_lit (a := hh.base32) (p := b!" (") (b := rest) (n := 2) rfl
        rwa [hlen] at this
      have a4 : (hh.base32 ++ b!" (" ++ rest).take 39 = hh.base32 := by
        rw [List.append_assoc, ← hlen, List.take_left]
      rw [a1, a2]
      simp only [Res.ok_bind]
      rw [if_neg (by simp), a3, a4]
      simp [Hash.unmarshal_base32, hm1, hb]
    | none =>
      rw [htt] at hname
      simp only at hname
      obtain ⟨t1, t2⟩ := hhub htt
      obtain ⟨t3, t4⟩ := t2 name hname
      have hpre : hasPrefix (name ++ b!" (" ++ rest) b!"TTH:" = false := by
        rw [Bool.eq_false_iff]
        intro h'
        rw [hasPrefix_iff] at h'
        apply t4
        by_cases hlen : 2 ≤ name.length
        · exact List.prefix_of_prefix_length_le h' (List.prefix_append _ _) (by simp; omega)
        · exfalso
          match name, hlen, h' with
          | [], _, h' => simp at h'
          | [x], _, h' => simp at h'
          | _ :: _ :: _, hlen, _ => simp at hlen
      have hidx : index (name ++ b!" (" ++ rest) b!" (" = some name.length := by
        refine index_at (by simp) ?_
        rintro ⟨x, y, hxy⟩
        apply t3
        have hy : y ≠ [] := by
          rintro rfl
          have := congrArg List.getLast? hxy
          simp at this
        obtain ⟨y', z, rfl⟩ : ∃ y' z, y = y' ++ [z] := by
          rcases List.eq_nil_or_concat y with h | ⟨a, b, h⟩
          · exact absurd h hy
          · exact ⟨a, b, by rw [h, List.concat_eq_append]⟩
        have e : (x ++ b!" (" ++ y') ++ [z] = name ++ b!" " := by simpa using hxy
        exact ⟨x, y', (List.append_inj' e rfl).1⟩
      rw [hpre, hidx]
      simp only [Bool.false_eq_true, if_false]
      rw [sliceFrom_lit (p := b!" (") (n := 2) rfl, take_lit]
      simp [str_roundtrip hl t1 hname, hm2]
  -- address and recipient
  have htarget : ∀ m0 : SR, m0.dst = [] → SR.parseTarget dec m0 rest = .ok (addr, dst) := by
    intro m0 hm
    unfold SR.parseTarget
    rw [← hrest, indexByte_append haddr]
    simp only [List.take_left, sliceFrom_append', Res.ok_bind]
    unfold SR.target at hto
    simp only at hto
    by_cases hd : dst = []
    · rw [if_pos hd] at hto
      cases hto
      simp [hm, hd]
    · rw [if_neg hd] at hto
      simp only [Res.bind_eq_ok, Res.ok.injEq] at hto
      obtain ⟨n, hn, rfl⟩ := hto
      simp [name_ne_nil hl hn hd hnil, name_roundtrip hl (hdst hd) hn]
  obtain ⟨pt, hpt⟩ := hacc
  have htail : ∀ m0 : SR, m0.hubName = [] → m0.tth = none → m0.dst = [] →
      SR.tail dec m0 jp (itoa free ++ c!"/" :: itoa total) (name ++ b!" (" ++ rest) =
      .ok { m0 with path := ws, freeSlots := free, totalSlots := total, hubName := hub, tth := tth, hubAddress := addr,
                    dst := dst } := by
    intro m0 a1 a2 a3
    unfold SR.tail
    rw [hpt, hslot, hsource m0 a1 a2]
    simp only [Res.ok_bind]
    rw [htarget m0 a3, hsplit]
    rfl
  cases isDir with
  | true =>
    obtain ⟨hz, hf0, ht0⟩ := hdir rfl
    have e : s ++ b!" " ++ jp ++ (if true = true then [] else (5 : Byte) :: utoa size) ++ b!" " ++
        SR.slots ⟨src, ws, true, size, free, total, hub, tth, addr, dst⟩ ++ [5] ++ name ++ b!" (" ++ addr ++ b!")" ++ to =
        s ++ c!" " :: ((jp ++ c!" " :: (itoa free ++ c!"/" :: itoa total)) ++ 5 :: (name ++ b!" (" ++ rest)) := by
      rw [← hrest]; simp [SR.slots]
    have hnn : ∀ k : Int, 0 ≤ k → ∀ c ∈ itoa k, IsDigit c := by
      intro k hk c hc
      obtain ⟨n, rfl⟩ : ∃ n : Nat, k = n := ⟨k.toNat, by omega⟩
      exact utoa_digit hc
    have h5' : (5 : Byte) ∉ jp ++ c!" " :: (itoa free ++ c!"/" :: itoa total) := by
      intro hm
      simp only [List.mem_append, List.mem_cons] at hm h5s
      rcases hm with hm | hm | hm
      · exact h5 hm
      · exact absurd hm (by decide)
      · exact h5s hm
    rw [e]
    unfold SR.unmarshal
    rw [indexByte_append (hsrc.2 s hs)]
    simp only [List.take_left, sliceFrom_append', Res.ok_bind, name_roundtrip hl hsrc.1 hs]
    rw [indexByte_append h5']
    simp only [List.take_left, sliceFrom_append', Res.ok_bind]
    rw [dirSplit_dir (hnn _ hf0) (hnn _ ht0)]
    simp only
    rw [htail _ rfl rfl rfl, hz]
  | false =>
    have hf := hfile rfl
    have e : s ++ b!" " ++ jp ++ (if false = true then [] else (5 : Byte) :: utoa size) ++ b!" " ++
        SR.slots ⟨src, ws, false, size, free, total, hub, tth, addr, dst⟩ ++ [5] ++ name ++ b!" (" ++ addr ++ b!")" ++ to =
        s ++ c!" " :: (jp ++ 5 :: ((utoa size ++ c!" " :: (itoa free ++ c!"/" :: itoa total)) ++ 5 :: (name ++ b!" (" ++ rest))) := by
      rw [← hrest]; simp [SR.slots]
    have h5' : (5 : Byte) ∉ utoa size ++ c!" " :: (itoa free ++ c!"/" :: itoa total) := by
      intro hm
      simp only [List.mem_append, List.mem_cons] at hm h5s
      rcases hm with hm | hm | hm
      · exact utoa_no (by decide) hm
      · exact absurd hm (by decide)
      · exact h5s hm
    rw [e]
    unfold SR.unmarshal
    rw [indexByte_append (hsrc.2 s hs)]
    simp only [List.take_left, sliceFrom_append', Res.ok_bind, name_roundtrip hl hsrc.1 hs]
    rw [indexByte_append h5]
    simp only [List.take_left, sliceFrom_append', Res.ok_bind]
    rw [dirSplit_file hf]
    simp only
    unfold SR.fileSplit
    rw [indexByte_append h5']
    simp only [List.take_left, sliceFrom_append', Res.ok_bind]
    rw [indexByte_append (utoa_no (by decide))]
    simp only [List.take_left, sliceFrom_append', Res.ok_bind, NmdcNumbers.number_roundtrip hsize]
    rw [htail _ rfl rfl rfl]

/-- A file with a hub name. -/
example : ∃ w, SR.marshal none ⟨b!"joe", [b!"dir 1", b!"a/b.txt"], false, 4096, 1, 3, b!"hub (1", none, b!"10.0.0.1:411", b!"ann"⟩ = .ok w ∧
    ¬ SR.unmarshal none {} w =
      .ok ⟨b!"joe", [b!"dir 1", b!"a/b.txt"], false, 4096, 1, 3, b!"hub (1", none, b!"10.0.0.1:411", b!"ann"⟩ :=
  ⟨_, rfl, by decide +kernel⟩

example : ∃ w, SR.marshal none ⟨b!"joe", [b!"dir 1", b!"a/b.txt"], false, 4096, 1, 3, b!"hub", none, b!"10.0.0.1:411", b!"ann"⟩ = .ok w ∧
    SR.unmarshal none {} w =
      .ok ⟨b!"joe", [b!"dir 1", b!"a/b.txt"], false, 4096, 1, 3, b!"hub", none, b!"10.0.0.1:411", b!"ann"⟩ := by
  refine ⟨_, rfl, sr_roundtrip lossless_nil rfl ⟨nameOk_of (by decide +kernel), by intro n hn; cases hn; decide⟩
    (by decide) ⟨b!"dir 1\\a/b.txt", by decide +kernel⟩ (by simp) ?_ (by decide) (by decide)
    (fun _ => ⟨textOk_of (by decide +kernel), by intro n hn; cases hn; decide⟩) (by simp) (by decide)
    (fun _ => nameOk_of (by decide +kernel)) rfl⟩
  intro _
  left
  intro a b hab
  refine ⟨c!"t", ?_, by decide⟩
  have h := congrArg List.getLast? hab
  cases hb : b with
  | nil => simp [hb, join] at h
  | cons x b =>
    rw [hb, List.getLast?_append, List.getLast?_cons_cons] at h
    exact List.mem_of_getLast? h.symm

/-- A directory with a hash. -/
example : ∃ w, SR.marshal none ⟨b!"joe", [b!"share", b!"x 1/2"], true, 0, 0, 12, [], some .zero, b!"10.0.0.1:411", []⟩ = .ok w ∧
    SR.unmarshal none {} w = .ok ⟨b!"joe", [b!"share", b!"x 1/2"], true, 0, 0, 12, [], some .zero, b!"10.0.0.1:411", []⟩ :=
  ⟨_, rfl, sr_roundtrip lossless_nil rfl ⟨nameOk_of (by decide +kernel), by intro n hn; cases hn; decide⟩
    (by decide) ⟨b!"share\\x 1/2", by decide +kernel⟩ (by simp) (by simp) (by decide) (by decide)
    (by simp) (by simp) (by decide) (by simp) rfl⟩

/-- The path is not unescaped: a `|` comes back as its escape. -/
theorem sr_path_escaped :
    ∃ w, SR.marshal none { src := b!"joe", path := [b!"a|b"], hubName := b!"h" } = .ok w ∧
      SR.unmarshal none {} w = .ok { src := b!"joe", path := [b!"a&#124;b"], hubName := b!"h" } := ⟨_, rfl, by decide +kernel⟩

/-- A file whose name ends in `number/number` is taken for a directory. -/
theorem sr_file_misread :
    ∃ w, SR.marshal none { src := b!"joe", path := [b!"a 1/2"], size := 3, totalSlots := 1, hubName := b!"h" } = .ok w ∧
      SR.unmarshal none {} w = .ok { src := b!"joe", path := [b!"a"], isDir := true, freeSlots := 1, totalSlots := 2,
                                     hubName := b!"3 0/1" ++ [5] ++ b!"h" } := ⟨_, rfl, by decide +kernel⟩

/-! ## C28 -/

theorem shortSearch_ok (h : Hash) (r : Bytes) : shortSearch (h.base32 ++ b!" " ++ r) = .ok (h, r) := by
  have hlen := h.base32_length
  unfold shortSearch
  rw [if_neg (by simp; omega)]
  have a1 : at' (h.base32 ++ b!" " ++ r) 39 = .ok c!" " := by
    unfold at'
    rw [List.append_assoc, List.getElem?_append_right (by omega), hlen]
    rfl
  have a2 : (h.base32 ++ b!" " ++ r).take 39 = h.base32 := by rw [List.append_assoc, ← hlen, List.take_left]
  have a3 : sliceFrom (h.base32 ++ b!" " ++ r) 40 = .ok r := by
    have := sliceFrom_lit (a := h.base32) (p := b!" ") (b := r) (n := 1) rfl
    rwa [hlen] at this
  rw [a1, a2, a3]
  simp [Hash.unmarshal_base32]

/-- Active short searches: every hash and every address. -/
theorem sa_roundtrip (m : SA) : ∃ w, m.marshal = .ok w ∧ SA.unmarshal w = .ok m :=
  ⟨_, rfl, by simp only [SA.unmarshal, shortSearch_ok]; rfl⟩

example : ∃ w, SA.marshal ⟨.zero, b!"10.0.0.1:412"⟩ = .ok w ∧ w.length = 52 :=
  ⟨_, rfl, by decide +kernel⟩

/-- Passive short searches. -/
theorem sp_roundtrip [HtmlEntities] {enc dec : Codec} (hl : Lossless enc dec) {m : SP} {w : Bytes} (hu : NameOk enc m.user)
    (h : m.marshal enc = .ok w) : SP.unmarshal dec w = .ok m := by
  simp only [SP.marshal, Res.bind_eq_ok, Res.pure_eq, Res.ok.injEq] at h
  obtain ⟨n, hn, rfl⟩ := h
  simp only [SP.unmarshal, shortSearch_ok, Res.ok_bind, name_roundtrip hl hu hn]
  rfl

example : ∃ w, SP.marshal none ⟨.zero, b!"joe & ann"⟩ = .ok w ∧ SP.unmarshal none w = .ok ⟨.zero, b!"joe & ann"⟩ :=
  ⟨_, rfl, sp_roundtrip lossless_nil (nameOk_of (by decide +kernel)) rfl⟩

end Verif.Props.NmdcSearch
