import Verif.Addr.Addr

/-!
# Hub addresses (C57, C64)
-/

namespace Verif.Props.Addresses

open Verif.Go Verif.Addr

variable {α : Type} (L : UrlLib α)

/-! ## Hosts and ports -/

/-- A host and port, as a user writes them. -/
inductive HostPort : Bytes → Bytes → Bytes → Prop where
  | name (h p : Bytes) (hh : ∀ c ∈ h, c ≠ c!":" ∧ c ≠ c!"[" ∧ c ≠ c!"]") (hp : ∀ c ∈ p, c ≠ c!":" ∧ c ≠ c!"[" ∧ c ≠ c!"]") :
      HostPort (h ++ b!":" ++ p) h p
  | bracket (h p : Bytes) (hh : ∀ c ∈ h, c ≠ c!"[" ∧ c ≠ c!"]") (hp : ∀ c ∈ p, c ≠ c!":" ∧ c ≠ c!"[" ∧ c ≠ c!"]") :
      HostPort (b!"[" ++ h ++ b!"]:" ++ p) h p

/-- `net.SplitHostPort`, exactly. -/
theorem splitHostPort_iff (s h p : Bytes) : splitHostPort s = .ok (h, p) ↔ HostPort s h p := by
  constructor
  · intro hs
    unfold splitHostPort at hs
    split at hs
    · simp at hs
    · rename_i i hi
      obtain ⟨a, b, rfl, hb, rfl⟩ := lastIndexByte_some hi
      split at hs
      · rename_i hhd
        split at hs
        · simp at hs
        · rename_i e he
          obtain ⟨x, y, hxy, hx, hxl⟩ := indexByte_some he
          split at hs
          · simp at hs
          · rename_i hei
            split at hs
            · simp at hs
            · rename_i hbr
              simp only [Except.ok.injEq, Prod.mk.injEq] at hs
              obtain ⟨rfl, rfl⟩ := hs
              simp only [not_or] at hbr
              have hei : e + 1 = a.length := by omega
              subst hxl
              -- a = x ++ "]"
              have ha : a = x ++ [c!"]"] := by
                have := congrArg (List.take (x.length + 1)) hxy
                rw [hei, List.take_left' rfl, ← hei] at this
                rw [this, List.take_append, List.take_of_length_le (by omega)]
                simp
              subst ha
              have hy : y = c!":" :: b := by simpa using hxy.symm
              subst hy
              cases x with
              | nil => simp at hhd
              | cons c x =>
                simp at hhd
                subst hhd
                have := HostPort.bracket x b ?_ ?_
                · simpa using this
                · intro c hc
                  constructor
                  · rintro rfl; exact hbr.1 (by simp [hc])
                  · rintro rfl; exact hx (by simp [hc])
                · intro c hc
                  refine ⟨fun h => hb (h ▸ hc), ?_, ?_⟩
                  · rintro rfl; exact hbr.1 (by simp [hc])
                  · rintro rfl; exact hbr.2 (by simp [hc])
      · split at hs
        · simp at hs
        · rename_i hcol
          split at hs
          · simp at hs
          · rename_i hbr
            simp only [Except.ok.injEq, Prod.mk.injEq] at hs
            obtain ⟨rfl, rfl⟩ := hs
            simp only [not_or] at hbr
            have := HostPort.name a b ?_ ?_
            · simpa using this
            · intro c hc
              refine ⟨?_, ?_, ?_⟩
              · rintro rfl; exact hcol (by simp [hc])
              · rintro rfl; exact hbr.1 (by simp [hc])
              · rintro rfl; exact hbr.2 (by simp [hc])
            · intro c hc
              refine ⟨fun h => hb (h ▸ hc), ?_, ?_⟩
              · rintro rfl; exact hbr.1 (by simp [hc])
              · rintro rfl; exact hbr.2 (by simp [hc])
  · intro hs
    cases hs with
    | name h p hh hp =>
      have h1 : c!":" ∉ p := fun h => (hp _ h).1 rfl
      have hl : lastIndexByte (h ++ b!":" ++ p) c!":" = some h.length := by
        rw [List.append_assoc]; exact lastIndexByte_append h1
      unfold splitHostPort
      rw [hl]
      simp only
      rw [if_neg, if_neg, if_neg]
      · simp
      · simp only [List.mem_append, List.mem_singleton, not_or]
        exact ⟨⟨⟨fun h => (hh _ h).2.1 rfl, by decide⟩, fun h => (hp _ h).2.1 rfl⟩, ⟨fun h => (hh _ h).2.2 rfl, by decide⟩, fun h => (hp _ h).2.2 rfl⟩
      · simp; exact fun h => (hh _ h).1 rfl
      · cases h with
        | nil => simp
        | cons c h => simp; exact (hh c (by simp)).2.1
    | bracket h p hh hp =>
      have h1 : c!":" ∉ p := fun h => (hp _ h).1 rfl
      have hl : lastIndexByte (b!"[" ++ h ++ b!"]:" ++ p) c!":" = some (h.length + 2) := by
        have := lastIndexByte_append (a := b!"[" ++ h ++ b!"]") h1
        simpa using this
      have hi : indexByte (b!"[" ++ h ++ b!"]:" ++ p) c!"]" = some (h.length + 1) := by
        have := indexByte_append (a := b!"[" ++ h) (b := b!":" ++ p) (c := c!"]") (by simp; exact fun h' => (hh _ h').2 rfl)
        simpa using this
      unfold splitHostPort
      rw [hl, hi]
      simp only
      rw [if_pos (by simp), if_neg (by simp), if_neg]
      · simp [List.drop_append]
      · simp [List.drop_append]
        exact ⟨⟨fun h => (hh _ h).1 rfl, fun h => (hp _ h).2.1 rfl⟩, fun h' => (hh _ (List.mem_of_mem_drop h')).2 rfl, fun h => (hp _ h).2.2 rfl⟩

example : HostPort b!"hub.example.com:411" b!"hub.example.com" b!"411" ∧ HostPort b!"[::1]:411" b!"::1" b!"411" :=
  ⟨.name b!"hub.example.com" b!"411" (by decide) (by decide), .bracket b!"::1" b!"411" (by decide) (by decide)⟩

theorem trimSlash_last (p : Bytes) : (trimSlash p).getLast? ≠ some c!"/" := by
  unfold trimSlash trimRight
  rw [List.getLast?_reverse]
  intro h
  have := List.head?_dropWhile_not (fun x => x == c!"/") p.reverse
  rw [h] at this
  simp at this

theorem trimSlash_prefix (p : Bytes) : ∃ n, p = trimSlash p ++ List.replicate n c!"/" := by
  induction hp : p.reverse generalizing p with
  | nil => exact ⟨0, by simp_all [trimSlash, trimRight]⟩
  | cons c q ih =>
    have hp' : p = q.reverse ++ [c] := by rw [← List.reverse_reverse p, hp]; simp
    subst hp'
    by_cases hc : c = c!"/"
    · obtain ⟨n, hn⟩ := ih q.reverse (by simp)
      refine ⟨n + 1, ?_⟩
      unfold trimSlash at hn ⊢
      rw [trimRight_append_cut (by simp [hc]), List.replicate_succ', ← List.append_assoc, ← hn, hc]
    · refine ⟨0, ?_⟩
      unfold trimSlash
      rw [trimRight_snoc (by simp [hc])]
      simp

/-! ## C57 -/

/-- What a successful parse gives: the URL of `text`, with the scheme and path changed as said. -/
def Parsed (text : Bytes) (schemes : List Bytes) (u : Url α) : Prop :=
  ∃ v, L.parse text = .ok v ∧ u.host = v.host ∧ u.rest = v.rest ∧ u.scheme ∈ schemes ∧
    (u.scheme = v.scheme ∨ v.scheme = b!"nmdc" ∧ u.scheme = b!"dchub") ∧
    u.path.getLast? ≠ some c!"/" ∧ ∃ n, v.path = u.path ++ List.replicate n c!"/"

/-- The text that is parsed as a URL for an NMDC address. -/
def nmdcText (addr : Bytes) : Bytes := if contains addr b!"://" then addr else b!"dchub://" ++ addr

/-- **C57 (`adc.ParseAddr`).** It accepts exactly the URLs with the schemes adc and adcs. -/
theorem adc_parse (addr : Bytes) :
    (∀ u, adcParseAddr L addr = .ok u → Parsed L addr [b!"adc", b!"adcs"] u) ∧
    (∀ v, L.parse addr = .ok v → v.scheme ∈ [b!"adc", b!"adcs"] → ∃ u, adcParseAddr L addr = .ok u) ∧
    (∀ e, L.parse addr = .error e → adcParseAddr L addr = .error e) := by
  refine ⟨?_, ?_, ?_⟩
  · intro u h
    unfold adcParseAddr at h
    split at h
    · simp at h
    · rename_i v hv
      split at h
      · simp at h
      · rename_i hs
        simp only [Except.ok.injEq] at h
        subst h
        refine ⟨v, hv, rfl, rfl, ?_, .inl rfl, trimSlash_last _, trimSlash_prefix _⟩
        simp only [List.mem_cons, List.not_mem_nil, or_false]
        by_cases h1 : v.scheme = b!"adc"
        · exact .inl h1
        · by_cases h2 : v.scheme = b!"adcs"
          · exact .inr h2
          · exact absurd ⟨h1, h2⟩ hs
  · intro v hv hs
    unfold adcParseAddr
    rw [hv]
    simp only
    rw [if_neg]
    · exact ⟨_, rfl⟩
    · rintro ⟨h1, h2⟩; simp at hs; rcases hs with h | h <;> contradiction
  · intro e he
    unfold adcParseAddr
    rw [he]

/-- **C57 (`nmdc.ParseAddr`).** An address without `://` gets the scheme dchub; `nmdc` means dchub; it accepts exactly the URLs
with these schemes and nmdcs. -/
theorem nmdc_parse (addr : Bytes) :
    (∀ u, nmdcParseAddr L addr = .ok u → Parsed L (nmdcText addr) [b!"dchub", b!"nmdcs"] u ∧ u.scheme ≠ b!"nmdc") ∧
    (∀ v, L.parse (nmdcText addr) = .ok v → v.scheme ∈ [b!"dchub", b!"nmdcs", b!"nmdc"] → ∃ u, nmdcParseAddr L addr = .ok u) ∧
    (∀ e, L.parse (nmdcText addr) = .error e → nmdcParseAddr L addr = .error e) := by
  have key : nmdcParseAddr L addr = match L.parse (nmdcText addr) with
      | .error e => .error e
      | .ok u =>
        let u := if u.scheme = b!"nmdc" then { u with scheme := b!"dchub" } else u
        if u.scheme ≠ b!"dchub" ∧ u.scheme ≠ b!"nmdcs" then .error (.other 96)
        else .ok { u with path := trimSlash u.path } := rfl
  refine ⟨?_, ?_, ?_⟩
  · intro u h
    rw [key] at h
    split at h
    · simp at h
    · rename_i v hv
      by_cases hn : v.scheme = b!"nmdc"
      · simp only [if_pos hn] at h
        rw [if_neg (by simp)] at h
        simp only [Except.ok.injEq] at h
        subst h
        exact ⟨⟨v, hv, rfl, rfl, by simp, .inr ⟨hn, rfl⟩, trimSlash_last _, trimSlash_prefix _⟩, by show b!"dchub" ≠ b!"nmdc"; decide⟩
      · simp only [if_neg hn] at h
        split at h
        · simp at h
        · rename_i hs
          simp only [Except.ok.injEq] at h
          subst h
          refine ⟨⟨v, hv, rfl, rfl, ?_, .inl rfl, trimSlash_last _, trimSlash_prefix _⟩, hn⟩
          simp only [List.mem_cons, List.not_mem_nil, or_false]
          by_cases h1 : v.scheme = b!"dchub"
          · exact .inl h1
          · by_cases h2 : v.scheme = b!"nmdcs"
            · exact .inr h2
            · exact absurd ⟨h1, h2⟩ hs
  · intro v hv hs
    rw [key, hv]
    simp only
    simp at hs
    rw [if_neg]
    · exact ⟨_, rfl⟩
    · rcases hs with h | h | h <;> simp [h]
  · intro e he
    rw [key, he]

/-- The host of a URL, with or without port. -/
def HostOf (s h : Bytes) : Prop := (∃ p, HostPort s h p) ∨ (∀ h p, ¬ HostPort s h p) ∧ HostPort (s ++ b!":411") h b!"411"

/-- **C57 (`NormalizeAddr`).** It succeeds exactly if the address parses and has a non-empty host, with a port (ADC) or with or
without one (NMDC); the result is the text of the parsed URL. -/
theorem normalize (addr t : Bytes) :
    (adcNormalizeAddr L addr = .ok t ↔ ∃ u h p, adcParseAddr L addr = .ok u ∧ HostPort u.host h p ∧ h ≠ [] ∧ t = L.str u) ∧
    (nmdcNormalizeAddr L addr = .ok t ↔ ∃ u h, nmdcParseAddr L addr = .ok u ∧ HostOf u.host h ∧ h ≠ [] ∧ t = L.str u) := by
  have unique : ∀ {s h p h' p'}, HostPort s h p → HostPort s h' p' → h = h' ∧ p = p' := by
    intro s h p h' p' h1 h2
    rw [← splitHostPort_iff] at h1 h2
    rw [h1] at h2
    simpa using h2
  constructor
  · unfold adcNormalizeAddr
    cases hu : adcParseAddr L addr with
    | error e => simp
    | ok u =>
      simp only [Except.ok.injEq]
      cases hs : splitHostPort u.host with
      | error e =>
        simp only [reduceCtorEq, false_iff]
        rintro ⟨u', h, p, rfl, h1, _⟩
        rw [← splitHostPort_iff, hs] at h1
        simp at h1
      | ok x =>
        obtain ⟨h, p⟩ := x
        have hp := (splitHostPort_iff _ _ _).mp hs
        simp only
        split
        · rename_i he
          simp only [reduceCtorEq, false_iff]
          rintro ⟨u', h', p', rfl, h1, h2, _⟩
          exact h2 ((unique hp h1).1 ▸ he)
        · rename_i he
          constructor
          · intro h1; simp only [Except.ok.injEq] at h1; exact ⟨u, h, p, rfl, hp, he, h1.symm⟩
          · rintro ⟨u', _, _, rfl, _, _, rfl⟩; rfl
  · unfold nmdcNormalizeAddr
    cases hu : nmdcParseAddr L addr with
    | error e => simp
    | ok u =>
      simp only [Except.ok.injEq]
      cases hs : splitHostPort u.host with
      | ok x =>
        obtain ⟨h, p⟩ := x
        have hp := (splitHostPort_iff _ _ _).mp hs
        have hun : ∀ h', HostOf u.host h' → h' = h := by
          rintro h' (⟨p', h1⟩ | ⟨h1, _⟩)
          · exact (unique h1 hp).1
          · exact absurd hp (h1 _ _)
        simp only
        split
        · rename_i he
          simp only [reduceCtorEq, false_iff]
          rintro ⟨u', h', rfl, h1, h2, _⟩
          exact h2 (hun h' h1 ▸ he)
        · rename_i he
          constructor
          · intro h1; simp only [Except.ok.injEq] at h1; exact ⟨u, h, rfl, .inl ⟨p, hp⟩, he, h1.symm⟩
          · rintro ⟨u', _, rfl, _, _, rfl⟩; rfl
      | error e =>
        have hno : ∀ h p, ¬ HostPort u.host h p := by
          intro h p h1
          rw [← splitHostPort_iff, hs] at h1
          simp at h1
        have h411 : u.host ++ b!":" ++ itoa 411 = u.host ++ b!":411" := by
          rw [show itoa 411 = b!"411" by decide +kernel]; simp
        simp only
        rw [h411]
        cases hs2 : splitHostPort (u.host ++ b!":411") with
        | error e' =>
          simp only [reduceCtorEq, false_iff]
          rintro ⟨u', h', rfl, (⟨p, h1⟩ | ⟨_, h1⟩), _⟩
          · exact hno _ _ h1
          · rw [← splitHostPort_iff, hs2] at h1; simp at h1
        | ok x =>
          obtain ⟨h, p⟩ := x
          have hp := (splitHostPort_iff _ _ _).mp hs2
          have hun : ∀ h', HostOf u.host h' → h' = h := by
            rintro h' (⟨p', h1⟩ | ⟨_, h1⟩)
            · exact absurd h1 (hno _ _)
            · exact (unique h1 hp).1
          have hp411 : p = b!"411" := by
            generalize hg : u.host ++ b!":411" = g at hp
            cases hp with
            | name h p hh hpp =>
              have h1 := lastIndexByte_append (a := h) (b := p) (c := c!":") (fun h => (hpp _ h).1 rfl)
              have h2 := lastIndexByte_append (a := u.host) (b := b!"411") (c := c!":") (by decide)
              rw [show u.host ++ c!":" :: b!"411" = h ++ c!":" :: p by simpa using hg, h1] at h2
              simp at h2
              have := List.append_inj (s₁ := h) (t₁ := c!":" :: p) (s₂ := u.host) (t₂ := b!":411") (by simpa using hg.symm) h2
              simpa using this.2
            | bracket h p hh hpp =>
              have h1 := lastIndexByte_append (a := b!"[" ++ h ++ b!"]") (b := p) (c := c!":") (fun h => (hpp _ h).1 rfl)
              have h2 := lastIndexByte_append (a := u.host) (b := b!"411") (c := c!":") (by decide)
              have hg' : u.host ++ c!":" :: b!"411" = (b!"[" ++ h ++ b!"]") ++ c!":" :: p := by simpa using hg
              rw [hg', h1] at h2
              have := List.append_inj (s₁ := b!"[" ++ h ++ b!"]") (t₁ := c!":" :: p) (s₂ := u.host) (t₂ := b!":411") (by simpa using hg'.symm) (by simpa using h2)
              simpa using this.2
          subst hp411
          simp only
          split
          · rename_i he
            simp only [reduceCtorEq, false_iff]
            rintro ⟨u', h', rfl, h1, h2, _⟩
            exact h2 (hun h' h1 ▸ he)
          · rename_i he
            constructor
            · intro h1; simp only [Except.ok.injEq] at h1; exact ⟨u, h, rfl, .inr ⟨hno, hp⟩, he, h1.symm⟩
            · rintro ⟨u', _, rfl, _, _, rfl⟩; rfl

/-- **C57 (`dc.ParseAddr`, `dc.NormalizeAddr`).** Only supported schemes, no trailing slash; an empty host is refused. -/
theorem dc_addr (addr : Bytes) :
    (∀ u, parseAddr L addr = .ok u → u.scheme ∈ [b!"adc", b!"adcs", b!"dchub", b!"nmdcs"] ∧ u.path.getLast? ≠ some c!"/") ∧
    (∀ t, normalizeAddr L addr = .ok t → ∃ u h, parseAddr L addr = .ok u ∧ HostOf u.host h ∧ h ≠ [] ∧ t = L.str u) := by
  unfold parseAddr normalizeAddr
  split
  · refine ⟨?_, ?_⟩
    · intro u h
      obtain ⟨v, _, _, _, h1, _, h2, _⟩ := (adc_parse L addr).1 u h
      exact ⟨by simp at h1 ⊢; rcases h1 with h | h <;> simp [h], h2⟩
    · intro t h
      obtain ⟨u, h, p, h1, h2, h3⟩ := (normalize L addr t).1.mp h
      exact ⟨u, h, h1, .inl ⟨p, h2⟩, h3⟩
  · refine ⟨?_, ?_⟩
    · intro u h
      obtain ⟨⟨v, _, _, _, h1, _, h2, _⟩, _⟩ := (nmdc_parse L addr).1 u h
      exact ⟨by simp at h1 ⊢; rcases h1 with h | h <;> simp [h], h2⟩
    · intro t h
      exact (normalize L addr t).2.mp h

/-! ## C64 -/

/-- The text of a normalized address, given again: parsed to a URL with the same scheme, host and path and the same text, it is its
own normal form; if it does not parse, it has none. -/
theorem normalize_twice (addr t : Bytes) (h : normalizeAddr L addr = .ok t) :
    ∃ u, parseAddr L addr = .ok u ∧ t = L.str u ∧
      ((∃ x, L.str u = u.scheme ++ b!"://" ++ x) →
        (∀ v, L.parse t = .ok v → v.scheme = u.scheme → v.host = u.host → v.path = u.path → L.str v = t →
          parseAddr L t = .ok v ∧ normalizeAddr L t = .ok t) ∧
        (∀ e, L.parse t = .error e → normalizeAddr L t = .error e)) := by
  have trim_id : ∀ p : Bytes, p.getLast? ≠ some c!"/" → trimSlash p = p := by
    intro p hp
    apply trimRight_id
    intro c hc
    by_cases hcs : c = c!"/"
    · exact absurd (hcs ▸ hc) hp
    · simpa using hcs
  by_cases hp : hasPrefix addr b!"adc" = true
  · simp only [normalizeAddr, hp, if_true] at h
    obtain ⟨u, h0, p, h1, h2, h3, rfl⟩ := (normalize L addr t).1.mp h
    refine ⟨u, by simp only [parseAddr, hp, if_true]; exact h1, rfl, ?_⟩
    rintro ⟨x, hx⟩
    obtain ⟨v, _, _, _, hs, _, hpath, _⟩ := (adc_parse L addr).1 u h1
    have hpre : hasPrefix (L.str u) b!"adc" = true := by
      rw [hasPrefix_iff, hx]
      simp at hs
      rcases hs with hs | hs <;> rw [hs]
      · exact ⟨b!"://" ++ x, by simp⟩
      · exact ⟨b!"s://" ++ x, by simp⟩
    refine ⟨?_, ?_⟩
    · intro v hv e1 e2 e3 e4
      have hparse : adcParseAddr L (L.str u) = .ok v := by
        unfold adcParseAddr
        rw [hv]
        simp only
        rw [if_neg, e3, trim_id _ hpath, ← e3]
        rw [e1]
        simp at hs
        rcases hs with hs | hs <;> simp [hs]
      refine ⟨by rw [parseAddr, if_pos hpre]; exact hparse, ?_⟩
      rw [normalizeAddr, if_pos hpre]
      exact (normalize L (L.str u) _).1.mpr ⟨v, h0, p, hparse, e2 ▸ h2, h3, e4.symm⟩
    · intro e he
      rw [normalizeAddr, if_pos hpre, adcNormalizeAddr, (adc_parse L (L.str u)).2.2 e he]
  · simp only [normalizeAddr, hp, if_false, Bool.false_eq_true] at h
    obtain ⟨u, h0, h1, h2, h3, rfl⟩ := (normalize L addr t).2.mp h
    refine ⟨u, by simp only [parseAddr, hp, if_false, Bool.false_eq_true]; exact h1, rfl, ?_⟩
    rintro ⟨x, hx⟩
    obtain ⟨⟨v, _, _, _, hs, _, hpath, _⟩, hnn⟩ := (nmdc_parse L addr).1 u h1
    have hpre : ¬ hasPrefix (L.str u) b!"adc" = true := by
      rw [hasPrefix_iff, hx]
      rintro ⟨y, hy⟩
      simp at hs
      rcases hs with hs | hs <;> rw [hs] at hy <;> simp at hy
    have htext : nmdcText (L.str u) = L.str u := by
      unfold nmdcText
      rw [if_pos]
      unfold contains
      cases hi : index (L.str u) b!"://" with
      | some i => rfl
      | none =>
        exfalso
        have := index_none hi u.scheme.length (by rw [hx]; simp)
        rw [hx] at this
        exact this ⟨x, by simp⟩
    refine ⟨?_, ?_⟩
    · intro v hv e1 e2 e3 e4
      have hnv : ¬ v.scheme = b!"nmdc" := by rw [e1]; exact hnn
      have hparse : nmdcParseAddr L (L.str u) = .ok v := by
        show (match L.parse (nmdcText (L.str u)) with
          | .error e => Except.error e
          | .ok u =>
            let u := if u.scheme = b!"nmdc" then { u with scheme := b!"dchub" } else u
            if u.scheme ≠ b!"dchub" ∧ u.scheme ≠ b!"nmdcs" then .error (.other 96)
            else .ok { u with path := trimSlash u.path }) = .ok v
        rw [htext, hv]
        simp only
        rw [if_neg hnv, if_neg, e3, trim_id _ hpath, ← e3]
        rw [e1]
        simp at hs
        rcases hs with hs | hs <;> simp [hs]
      refine ⟨by rw [parseAddr, if_neg hpre]; exact hparse, ?_⟩
      rw [normalizeAddr, if_neg hpre]
      exact (normalize L (L.str u) _).2.mpr ⟨v, h0, hparse, e2 ▸ h2, h3, e4.symm⟩
    · intro e he
      rw [normalizeAddr, if_neg hpre, nmdcNormalizeAddr, (nmdc_parse L (L.str u)).2.2 e (by rw [htext]; exact he)]

/-- **C64.** Normalizing a normalized address changes nothing, if `url.Parse` undoes `URL.String` on the URLs in question and
the text of a URL with a host has `://` after its scheme. -/
theorem normalize_idempotent (addr t : Bytes) (h : normalizeAddr L addr = .ok t)
    (hlaw : ∀ u, parseAddr L addr = .ok u → L.parse (L.str u) = .ok u ∧ ∃ x, L.str u = u.scheme ++ b!"://" ++ x) :
    normalizeAddr L t = .ok t := by
  obtain ⟨u, h1, rfl, h2⟩ := normalize_twice L addr t h
  obtain ⟨hp, hx⟩ := hlaw u h1
  exact ((h2 hx).1 u hp rfl rfl rfl rfl).2

/-- A library that knows one URL, to show that the hypotheses can be met. -/
def oneUrl : UrlLib Unit where
  parse s := if s = b!"dchub://hub.org:411/" ∨ s = b!"dchub://hub.org:411" then
      .ok ⟨b!"dchub", b!"hub.org:411", if s = b!"dchub://hub.org:411/" then b!"/" else [], ()⟩ else .error (.other 98)
  str u := u.scheme ++ b!"://" ++ u.host ++ u.path

example : normalizeAddr oneUrl b!"hub.org:411/" = .ok b!"dchub://hub.org:411" ∧
    normalizeAddr oneUrl b!"dchub://hub.org:411" = .ok b!"dchub://hub.org:411" := by
  constructor <;> rfl

/-! ## Findings -/

/-- `dc.ParseAddr` chooses the protocol by the first three letters of the address, not by its scheme: the address of an NMDC hub
without a scheme whose name begins with "adc" is refused, although `nmdc.ParseAddr` accepts it. -/
theorem adc_host_refused (name : Bytes) (hname : hasPrefix name b!"adc" = true) (hns : contains name b!"://" = false) (u v : Url α)
    (hu : L.parse name = .ok u) (hus : u.scheme = []) (hv : L.parse (b!"dchub://" ++ name) = .ok v) (hvs : v.scheme = b!"dchub") :
    (∃ e, parseAddr L name = .error e) ∧ ∃ w, nmdcParseAddr L name = .ok w := by
  refine ⟨⟨.other 96, ?_⟩, ?_⟩
  · simp [parseAddr, hname, adcParseAddr, hu, hus]
  · refine (nmdc_parse L name).2.1 v ?_ (by simp [hvs])
    unfold nmdcText
    rw [hns]
    exact hv

/-- An address with the scheme in capital letters, which `url.Parse` lowers, is refused although `adc.ParseAddr` accepts it. -/
theorem capital_scheme_refused (addr : Bytes) (h : hasPrefix addr b!"adc" = false) (hc : contains addr b!"://" = true) (u : Url α)
    (hu : L.parse addr = .ok u) (hus : u.scheme = b!"adc") :
    (∃ e, parseAddr L addr = .error e) ∧ ∃ w, adcParseAddr L addr = .ok w := by
  refine ⟨⟨.other 96, ?_⟩, (adc_parse L addr).2.1 u hu (by simp [hus])⟩
  simp [parseAddr, h, nmdcParseAddr, hc, hu, hus]

end Verif.Props.Addresses
