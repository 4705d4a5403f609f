import Verif.Props.Addresses
import Verif.Addr.Real
import Verif.Go.UrlLemmas

/-!
# Hub addresses with the real `net/url` (C103)

C57 and C64 hold for any library in place of `net/url`; here the library is the one of the standard library, so that the statements
are about texts alone.
-/

namespace Verif.Props.RealAddresses

open Verif.Go Verif.Addr Verif.Props.Addresses

/-- A host in brackets has no byte above 127 after a percent sign, that is, in its zone. -/
def ZoneOk (h : Bytes) : Prop := h.head? = some c!"[" → ∀ a b, h = a ++ c!"%" :: b → ∀ c ∈ b, c < 128

/-- Two URLs that mean the same: they may differ only in how path and fragment were written. -/
structure Same (x y : Go.Url.URL) : Prop where
  scheme : x.scheme = y.scheme
  user : x.user = y.user
  host : x.host = y.host
  path : x.path = y.path
  query : x.rawQuery = y.rawQuery
  force : x.forceQuery = y.forceQuery
  fragment : x.fragment = y.fragment

theorem hostOf_nonempty {s h : Bytes} (hs : HostOf s h) (hne : h ≠ []) : s ≠ [] := by
  rintro rfl
  rcases hs with ⟨p, hp⟩ | ⟨_, hp⟩
  · generalize hg : ([] : Bytes) = g at hp
    cases hp <;> simp at hg
  · rw [← splitHostPort_iff] at hp
    have : splitHostPort ([] ++ b!":411") = .ok ([], b!"411") := rfl
    rw [this] at hp
    simp only [Except.ok.injEq, Prod.mk.injEq] at hp
    exact hne hp.1.symm

theorem goUrl_parse {s : Bytes} {v : Addr.Url Go.Url.URL} (h : goUrl.parse s = .ok v) :
    Go.Url.parse s = some v.rest ∧ v.scheme = v.rest.scheme ∧ v.host = v.rest.host ∧ v.path = v.rest.path := by
  simp only [goUrl] at h
  split at h
  · simp at h
  · rename_i u hu
    simp only [Except.ok.injEq] at h
    subst h
    exact ⟨hu, rfl, rfl, rfl⟩

/-- The text the URL of an address is parsed from. -/
def urlText (addr : Bytes) : Bytes := if hasPrefix addr b!"adc" then addr else nmdcText addr

theorem parsed_full (addr : Bytes) (u : Addr.Url Go.Url.URL) (h : parseAddr goUrl addr = .ok u) (hh : u.host ≠ []) :
    u.full.scheme ∈ Go.Url.schemes ∧ Go.Url.Parsed u.full ∧
      ∃ w, Go.Url.parse (urlText addr) = some w ∧ w.host = u.host ∧ w.scheme ≠ [] := by
  have key : ∀ text sch, Addresses.Parsed goUrl text sch u → (∀ s ∈ sch, s ∈ Go.Url.schemes) →
      u.full.scheme ∈ Go.Url.schemes ∧ Go.Url.Parsed u.full ∧ ∃ w, Go.Url.parse text = some w ∧ w.host = u.host ∧ w.scheme ≠ [] := by
    rintro text sch ⟨v, h1, h2, h3, h4, h5, _, n, h6⟩ hsch
    obtain ⟨g1, g2, g3, g4⟩ := goUrl_parse h1
    have hwh : v.rest.host ≠ [] := by rw [← g3, ← h2]; exact hh
    have hp := Go.Url.parse_facts g1 hwh
    refine ⟨hsch _ h4, ?_, v.rest, g1, by rw [← g3, h2], ?_⟩
    · refine ⟨?_, ?_, hh, ?_, ?_, ?_, ?_⟩
      · show u.rest.opaq = []
        rw [h3]; exact hp.opaq
      · show Go.Url.GoHost u.host
        rw [h2, g3]; exact hp.host
      · show u.path = [] ∨ u.path.head? = some c!"/"
        have := hp.path
        rw [← g4, h6] at this
        cases hup : u.path with
        | nil => exact .inl rfl
        | cons c p =>
          rw [hup] at this
          right
          simpa using this
      · show u.rest.rawPath = [] ∨ u.rest.rawPath.head? = some c!"/"
        rw [h3]; exact hp.rawPath
      · show c!"#" ∉ u.rest.rawQuery ∧ ∀ c ∈ u.rest.rawQuery, Go.Url.ctl c = false
        rw [h3]; exact hp.query
      · show u.rest.forceQuery = true → u.rest.rawQuery = []
        rw [h3]; exact hp.force
    · intro e
      rw [← g2] at e
      rcases h5 with h5 | ⟨h5, _⟩
      · have := (Go.Url.scheme_bytes (hsch _ h4)).2.1
        rw [h5, e] at this
        exact this rfl
      · rw [e] at h5; simp at h5
  unfold parseAddr at h
  unfold urlText
  split at h
  · rename_i hp
    rw [if_pos hp]
    refine key _ _ ((adc_parse goUrl addr).1 u h) ?_
    decide
  · rename_i hp
    rw [if_neg hp]
    refine key _ _ ((nmdc_parse goUrl addr).1 u h).1 ?_
    decide

/-- **C103 (normal forms).** The normal form of an address, normalized again, is itself, and it is parsed to the same URL as the
address; unless the host has a zone with a byte above 127: then the normal form is not an address at all. -/
theorem normal_form (addr t : Bytes) (h : normalizeAddr goUrl addr = .ok t) :
    ∃ u, parseAddr goUrl addr = .ok u ∧ t = u.full.string ∧
      (ZoneOk u.host → normalizeAddr goUrl t = .ok t ∧ ∃ v, parseAddr goUrl t = .ok v ∧ Same v.full u.full) ∧
      (¬ ZoneOk u.host → ∃ e, normalizeAddr goUrl t = .error e) := by
  obtain ⟨u0, h0, hu0, hof, hne, _⟩ := (dc_addr goUrl addr).2 t h
  obtain ⟨u, h1, rfl, h2⟩ := normalize_twice goUrl addr t h
  have hh : u.host ≠ [] := by
    rw [h1] at hu0
    cases hu0
    exact hostOf_nonempty hof hne
  obtain ⟨hs, hp, _⟩ := parsed_full addr u h1 hh
  have hstr : goUrl.str u = u.full.string := rfl
  have hx : ∃ x, goUrl.str u = u.scheme ++ b!"://" ++ x := by
    have e := Go.Url.string_eq (Go.Url.scheme_bytes hs).2.1 hp
    simp only [List.append_assoc, List.cons_append, List.nil_append] at e
    rw [hstr]
    simp only [List.append_assoc, List.cons_append, List.nil_append]
    exact ⟨_, e⟩
  obtain ⟨h3, h4⟩ := h2 hx
  obtain ⟨p1, p2⟩ := Go.Url.parse_string hs hp
  obtain ⟨q1, q2⟩ := Go.Url.parseHost_escape hp.host
  refine ⟨u, h1, hstr, ?_, ?_⟩
  · intro hz
    obtain ⟨v, e1, e2, e3, e4, e5, e6, e7, e8, e9⟩ := p2 (q2.mpr hz)
    have hv : goUrl.parse (goUrl.str u) = .ok ⟨v.scheme, v.host, v.path, v⟩ := by
      simp only [goUrl]
      show (match Go.Url.parse u.full.string with
        | none => Except.error (Err.other 98)
        | some u => Except.ok (⟨u.scheme, u.host, u.path, u⟩ : Addr.Url Go.Url.URL)) = _
      rw [e1]
    obtain ⟨g1, g2⟩ := h3 _ hv e2 e4 e5 e9
    exact ⟨g2, _, g1, e2, e3, e4, e5, e6, e7, e8⟩
  · intro hz
    have : Go.Url.parseHost (Go.Url.escape .host u.full.host) = none := by
      rcases q1 with q | q
      · exact absurd (q2.mp q) hz
      · exact q
    have hn := p1 this
    refine ⟨.other 98, h4 _ ?_⟩
    simp only [goUrl]
    show (match Go.Url.parse u.full.string with
      | none => Except.error (Err.other 98)
      | some u => Except.ok (⟨u.scheme, u.host, u.path, u⟩ : Addr.Url Go.Url.URL)) = _
    rw [hn]

/-- **C103 (addresses without escapes).** If there is no percent sign in the address, its normal form is its own normal form. -/
theorem no_percent (addr t : Bytes) (hn : c!"%" ∉ addr) (h : normalizeAddr goUrl addr = .ok t) : normalizeAddr goUrl t = .ok t := by
  obtain ⟨u0, h0, hu0, hof, hne, _⟩ := (dc_addr goUrl addr).2 t h
  obtain ⟨u, h1, _, h2, _⟩ := normal_form addr t h
  rw [h1, Except.ok.injEq] at hu0
  subst hu0
  have hh := hostOf_nonempty hof hne
  refine (h2 ?_).1
  obtain ⟨_, _, w, g1, g2, _⟩ := parsed_full addr u h1 hh
  have hno := (Go.Url.parse_from g1 (by rw [g2]; exact hh)).2 (by
    unfold urlText nmdcText
    split
    · exact hn
    · split
      · exact hn
      · simp [hn])
  intro _ a b e
  rw [g2, e] at hno
  simp at hno

/-! ## Plain addresses -/

/-- A byte of a plain host name: a letter, digit, dot, hyphen or underscore. -/
def plainByte (c : Byte) : Bool :=
  (c!"a" ≤ c && c ≤ c!"z") || (c!"A" ≤ c && c ≤ c!"Z") || (c!"0" ≤ c && c ≤ c!"9") || c == c!"." || c == c!"-" || c == c!"_"

/-- A plain host name, with a port or without. -/
inductive Plain : Bytes → Option Bytes → Prop
  | name (n : Bytes) (hn : n ≠ []) (h : ∀ c ∈ n, plainByte c = true) : Plain n none
  | port (n p : Bytes) (hn : n ≠ []) (h : ∀ c ∈ n, plainByte c = true) (hp : ∀ c ∈ p, (c!"0" ≤ c && c ≤ c!"9") = true) (hpn : p ≠ []) :
      Plain (n ++ b!":" ++ p) (some p)

theorem plain_byte : ∀ c : Byte, plainByte c = true →
    Go.Url.shouldEscape .host c = false ∧ c ≠ c!"[" ∧ c ≠ c!"]" ∧ c ≠ c!":" ∧ c ≠ c!"/" := by
  apply forall_byte; decide +kernel

theorem digit_byte : ∀ c : Byte, (c!"0" ≤ c && c ≤ c!"9") = true →
    Go.Url.shouldEscape .host c = false ∧ c ≠ c!"[" ∧ c ≠ c!"]" ∧ c ≠ c!":" ∧ c ≠ c!"/" := by
  apply forall_byte; decide +kernel

theorem plain_nonempty {h : Bytes} {p : Option Bytes} (hp : Plain h p) : h ≠ [] := by
  cases hp with
  | name _ hn _ => exact hn
  | port n p hn _ _ _ => simp

theorem plain_escape {h : Bytes} {p : Option Bytes} (hp : Plain h p) : Go.Url.escape .host h = h := by
  apply Go.Url.escape_id
  intro c hc
  cases hp with
  | name _ _ h => exact (plain_byte c (h c hc)).1
  | port n p _ h hp _ =>
    simp only [List.mem_append, List.mem_singleton] at hc
    rcases hc with (hc | rfl) | hc
    · exact (plain_byte c (h c hc)).1
    · decide
    · exact (digit_byte c (hp c hc)).1

theorem plain_head {n : Bytes} (h : ∀ c ∈ n, plainByte c = true) : n.head? ≠ some c!"[" := by
  cases n with
  | nil => simp
  | cons c n =>
    simp
    exact (plain_byte c (h c (by simp))).2.1

theorem plain_back {n : Bytes} (h : ∀ c ∈ n, plainByte c = true) : ∀ c ∈ n, Go.Url.Back .host c := by
  intro c hc hs
  rw [(plain_byte c (h c hc)).1] at hs
  simp at hs

theorem plain_goHost {h : Bytes} {p : Option Bytes} (hp : Plain h p) : Go.Url.GoHost h := by
  cases hp with
  | name _ _ h => exact .name _ (plain_head h) (fun hm => (plain_byte _ (h _ hm)).2.2.2.1 rfl) (plain_back h)
  | port n p _ h hp _ =>
    have := Go.Url.GoHost.port n p (plain_head h) (plain_back h) (by rw [List.all_eq_true]; exact hp)
    simpa using this

theorem plain_zone {h : Bytes} {p : Option Bytes} (hp : Plain h p) : h.head? ≠ some c!"[" := by
  cases hp with
  | name _ _ h => exact plain_head h
  | port n p hn h hp _ =>
    have := plain_head h
    cases n with
    | nil => exact absurd rfl hn
    | cons c n => simpa using this

/-- `n` slashes. -/
def slashes (n : Nat) : Bytes := List.replicate n c!"/"

theorem slashes_head (n : Nat) : slashes n = [] ∨ (slashes n).head? = some c!"/" := by
  cases n with
  | zero => exact .inl rfl
  | succ n => exact .inr rfl

theorem trim_slashes (n : Nat) : trimSlash (slashes n) = [] := by
  induction n with
  | zero => rfl
  | succ n ih =>
    unfold slashes trimSlash at *
    rw [List.replicate_succ', trimRight_append_cut (by decide)]
    exact ih

theorem parse_plain (s h : Bytes) (p : Option Bytes) (n : Nat) (hs : s ∈ Go.Url.schemes) (hp : Plain h p) :
    ∃ v, Go.Url.parse (s ++ b!"://" ++ h ++ slashes n) = some v ∧ v.scheme = s ∧ v.host = h ∧ v.path = slashes n ∧ v.user = none ∧
      v.rawQuery = [] ∧ v.forceQuery = false ∧ v.fragment = [] := by
  let u : Go.Url.URL := { Go.Url.URL.empty with scheme := s, host := h, path := slashes n }
  have hu : Go.Url.Parsed u := ⟨rfl, plain_goHost hp, plain_nonempty hp, slashes_head n, .inl rfl, by simp [u, Go.Url.URL.empty], fun _ => rfl⟩
  have hpath : u.escapedPath = slashes n := by
    unfold Go.Url.URL.escapedPath
    rw [if_neg (by simp [u, Go.Url.URL.empty]), if_neg]
    · apply Go.Url.escape_id
      intro c hc
      have : c ∈ List.replicate n c!"/" := hc
      rw [List.mem_replicate] at this
      rw [this.2]; decide
    · show slashes n ≠ b!"*"
      intro e
      rcases slashes_head n with h | h <;> rw [e] at h <;> simp at h
  have hstr : u.string = s ++ b!"://" ++ h ++ slashes n := by
    rw [Go.Url.string_eq (Go.Url.scheme_bytes hs).2.1 hu, hpath]
    show s ++ c!":" :: (b!"//" ++ ([] ++ Go.Url.escape .host h) ++ slashes n ++ []) ++ [] = _
    rw [plain_escape hp]
    simp
  obtain ⟨v, e1, e2, e3, e4, e5, e6, e7, e8, _⟩ := (Go.Url.parse_string (u := u) hs hu).2
    ((Go.Url.parseHost_escape hu.host).2.mpr fun hb => absurd hb (plain_zone hp))
  rw [hstr] at e1
  exact ⟨v, e1, e2, e4, e5, e3, e6, e7, e8⟩

theorem escapedPath_nil {u : Go.Url.URL} (h : u.path = []) : u.escapedPath = [] := by
  have := Go.Url.escapedPath_back u
  cases he : u.escapedPath with
  | nil => rfl
  | cons c s =>
    rw [he, h] at this
    rcases Go.Url.unescape_cons this with ⟨_, _, _, _, _, _, _, _, _, _, _, _, e⟩ | ⟨_, _, _, _, e⟩ <;> simp at e

/-- The URL of a plain address. -/
structure IsPlain (u : Addr.Url Go.Url.URL) (s h : Bytes) : Prop where
  scheme : u.full.scheme = s
  host : u.full.host = h
  path : u.full.path = []
  user : u.full.user = none
  query : u.full.rawQuery = []
  force : u.full.forceQuery = false
  fragment : u.full.fragment = []

theorem plain_string {addr s h : Bytes} {p : Option Bytes} {u : Addr.Url Go.Url.URL} (hu : parseAddr goUrl addr = .ok u) (hi : IsPlain u s h)
    (hp : Plain h p) : goUrl.str u = s ++ b!"://" ++ h := by
  have hh : u.host = h := hi.host
  obtain ⟨h1, h2, _⟩ := parsed_full addr u hu (by rw [hh]; exact plain_nonempty hp)
  show u.full.string = _
  rw [Go.Url.string_eq (Go.Url.scheme_bytes h1).2.1 h2, hi.scheme, hi.user, hi.host, escapedPath_nil hi.path, plain_escape hp]
  unfold Go.Url.queryPart Go.Url.fragmentPart Go.Url.userPart
  rw [hi.force, hi.query, hi.fragment]
  simp

theorem plain_hostPort {h p : Bytes} (hp : Plain h (some p)) : ∃ n, n ≠ [] ∧ HostPort h n p := by
  cases hp with
  | port n _ hn h hp _ =>
    refine ⟨n, hn, .name n p (fun c hc => ?_) (fun c hc => ?_)⟩
    · obtain ⟨_, a, b, c, _⟩ := plain_byte c (h c hc); exact ⟨c, a, b⟩
    · obtain ⟨_, a, b, c, _⟩ := digit_byte c (hp c hc); exact ⟨c, a, b⟩

theorem plain_noPort {h : Bytes} (hp : Plain h none) : (∀ n p, ¬ HostPort h n p) ∧ HostPort (h ++ b!":411") h b!"411" := by
  cases hp with
  | name _ hn h' =>
    refine ⟨fun n p hx => ?_, ?_⟩
    · have : c!":" ∉ h := fun hm => (plain_byte _ (h' _ hm)).2.2.2.1 rfl
      cases hx with
      | name _ _ _ _ => simp at this
      | bracket _ _ _ _ => simp at this
    · have := HostPort.name h b!"411" (fun c hc => by obtain ⟨_, a, b, c, _⟩ := plain_byte c (h' c hc); exact ⟨c, a, b⟩) (by decide)
      simpa using this

theorem plain_hostOf {h : Bytes} {p : Option Bytes} (hp : Plain h p) : ∃ n, n ≠ [] ∧ HostOf h n := by
  cases p with
  | none => exact ⟨h, plain_nonempty hp, .inr (plain_noPort hp)⟩
  | some p =>
    obtain ⟨n, hn, hx⟩ := plain_hostPort hp
    exact ⟨n, hn, .inl ⟨p, hx⟩⟩

/-- **C103 (ADC addresses).** `adc://name:port` and `adcs://name:port`, with any number of slashes after it, stand for the host and port
they show, and the slashes are left out of the normal form; without a port there is no normal form. -/
theorem adc_plain (s h : Bytes) (p : Option Bytes) (n : Nat) (hs : s = b!"adc" ∨ s = b!"adcs") (hp : Plain h p) :
    (∃ u, parseAddr goUrl (s ++ b!"://" ++ h ++ slashes n) = .ok u ∧ IsPlain u s h) ∧
    (p ≠ none → normalizeAddr goUrl (s ++ b!"://" ++ h ++ slashes n) = .ok (s ++ b!"://" ++ h)) ∧
    (p = none → ∃ e, normalizeAddr goUrl (s ++ b!"://" ++ h ++ slashes n) = .error e) := by
  have hsm : s ∈ Go.Url.schemes := by rcases hs with rfl | rfl <;> decide
  obtain ⟨v, e1, e2, e3, e4, e5, e6, e7, e8⟩ := parse_plain s h p n hsm hp
  generalize htext : s ++ b!"://" ++ h ++ slashes n = text at e1
  have hpre : hasPrefix text b!"adc" = true := by
    rw [hasPrefix_iff, ← htext]
    rcases hs with rfl | rfl
    · exact ⟨b!"://" ++ h ++ slashes n, by simp⟩
    · exact ⟨b!"s://" ++ h ++ slashes n, by simp⟩
  have hparse : adcParseAddr goUrl text = .ok ⟨v.scheme, v.host, [], v⟩ := by
    have : goUrl.parse text = .ok ⟨v.scheme, v.host, v.path, v⟩ := by simp only [goUrl, e1]
    unfold adcParseAddr
    rw [this]
    simp only
    rw [if_neg, e4, trim_slashes]
    rw [e2]
    rcases hs with rfl | rfl <;> simp
  have hpa : parseAddr goUrl text = .ok ⟨v.scheme, v.host, [], v⟩ := by rw [parseAddr, if_pos hpre]; exact hparse
  have hi : IsPlain ⟨v.scheme, v.host, [], v⟩ s h := ⟨e2, e3, rfl, e5, e6, e7, e8⟩
  refine ⟨⟨_, hpa, hi⟩, ?_, ?_⟩
  · intro hne
    cases p with
    | none => exact absurd rfl hne
    | some p =>
      obtain ⟨m, hm, hx⟩ := plain_hostPort hp
      rw [normalizeAddr, if_pos hpre]
      exact (normalize goUrl text _).1.mpr ⟨_, m, p, hparse, by rw [← e3] at hx; exact hx, hm, (plain_string hpa hi hp).symm⟩
  · rintro rfl
    rw [normalizeAddr, if_pos hpre]
    cases hr : adcNormalizeAddr goUrl text with
    | error e => exact ⟨e, rfl⟩
    | ok t =>
      exfalso
      obtain ⟨u, m, q, h1, h2, _⟩ := (normalize goUrl text t).1.mp hr
      rw [hparse, Except.ok.injEq] at h1
      subst h1
      exact (plain_noPort hp).1 m q (by rw [← e3]; exact h2)

theorem nmdcParse_ok {α : Type} (L : UrlLib α) {addr : Bytes} {v : Addr.Url α} (hv : L.parse (nmdcText addr) = .ok v) :
    nmdcParseAddr L addr =
      let u := if v.scheme = b!"nmdc" then { v with scheme := b!"dchub" } else v
      if u.scheme ≠ b!"dchub" ∧ u.scheme ≠ b!"nmdcs" then .error (.other 96) else .ok { u with path := trimSlash u.path } := by
  have key : nmdcParseAddr L addr = match L.parse (nmdcText addr) with
      | .error e => .error e
      | .ok u =>
        let u := if u.scheme = b!"nmdc" then { u with scheme := b!"dchub" } else u
        if u.scheme ≠ b!"dchub" ∧ u.scheme ≠ b!"nmdcs" then .error (.other 96)
        else .ok { u with path := trimSlash u.path } := rfl
  rw [key, hv]

theorem nmdc_plain_text (s text h : Bytes) (p : Option Bytes) (n : Nat) (hs : s = b!"dchub" ∨ s = b!"nmdcs" ∨ s = b!"nmdc") (hp : Plain h p)
    (hpre : ¬ hasPrefix text b!"adc" = true) (htext : nmdcText text = s ++ b!"://" ++ h ++ slashes n) :
    (∃ u, parseAddr goUrl text = .ok u ∧ IsPlain u (if s = b!"nmdc" then b!"dchub" else s) h) ∧
    normalizeAddr goUrl text = .ok ((if s = b!"nmdc" then b!"dchub" else s) ++ b!"://" ++ h) := by
  have hsm : s ∈ Go.Url.schemes := by rcases hs with rfl | rfl | rfl <;> decide
  obtain ⟨v, e1, e2, e3, e4, e5, e6, e7, e8⟩ := parse_plain s h p n hsm hp
  rw [← htext] at e1
  have hparse : nmdcParseAddr goUrl text = .ok ⟨if s = b!"nmdc" then b!"dchub" else s, v.host, [], v⟩ := by
    have : goUrl.parse (nmdcText text) = .ok ⟨v.scheme, v.host, v.path, v⟩ := by simp only [goUrl, e1]
    rw [nmdcParse_ok goUrl this]
    simp only [e2]
    rcases hs with rfl | rfl | rfl <;> simp [e4, trim_slashes]
  have hpa : parseAddr goUrl text = .ok ⟨if s = b!"nmdc" then b!"dchub" else s, v.host, [], v⟩ := by rw [parseAddr, if_neg hpre]; exact hparse
  have hi : IsPlain ⟨if s = b!"nmdc" then b!"dchub" else s, v.host, [], v⟩ (if s = b!"nmdc" then b!"dchub" else s) h :=
    ⟨rfl, e3, rfl, e5, e6, e7, e8⟩
  refine ⟨⟨_, hpa, hi⟩, ?_⟩
  obtain ⟨m, hm, hx⟩ := plain_hostOf hp
  rw [normalizeAddr, if_neg hpre]
  exact (normalize goUrl text _).2.mpr ⟨_, m, hparse, by rw [← e3] at hx; exact hx, hm, (plain_string hpa hi hp).symm⟩

theorem contains_scheme (s x : Bytes) : contains (s ++ b!"://" ++ x) b!"://" = true := by
  unfold contains
  cases hi : index (s ++ b!"://" ++ x) b!"://" with
  | some i => rfl
  | none =>
    exfalso
    have := index_none hi s.length (by simp)
    rw [List.append_assoc, List.drop_left' rfl] at this
    exact this ⟨x, rfl⟩

/-- **C103 (NMDC addresses).** `dchub://name`, `nmdcs://name` and `nmdc://name`, with or without a port and any number of slashes, stand
for the host and port they show; `nmdc` becomes `dchub`. -/
theorem nmdc_plain (s h : Bytes) (p : Option Bytes) (n : Nat) (hs : s = b!"dchub" ∨ s = b!"nmdcs" ∨ s = b!"nmdc") (hp : Plain h p) :
    (∃ u, parseAddr goUrl (s ++ b!"://" ++ h ++ slashes n) = .ok u ∧ IsPlain u (if s = b!"nmdc" then b!"dchub" else s) h) ∧
    normalizeAddr goUrl (s ++ b!"://" ++ h ++ slashes n) = .ok ((if s = b!"nmdc" then b!"dchub" else s) ++ b!"://" ++ h) := by
  refine nmdc_plain_text s _ h p n hs hp ?_ ?_
  · rw [hasPrefix_iff]
    rintro ⟨y, hy⟩
    rcases hs with rfl | rfl | rfl <;> simp at hy
  · unfold nmdcText
    rw [if_pos]
    rw [List.append_assoc]
    exact contains_scheme _ _

theorem plain_no_scheme {h : Bytes} {p : Option Bytes} (hp : Plain h p) (n : Nat) : contains (h ++ slashes n) b!"://" = false := by
  have hsl : c!":" ∉ slashes n := by
    intro hm
    have : c!":" ∈ List.replicate n c!"/" := hm
    rw [List.mem_replicate] at this
    exact absurd this.2 (by decide)
  unfold contains
  cases hi : index (h ++ slashes n) b!"://" with
  | none => rfl
  | some i =>
    exfalso
    obtain ⟨a, b, e, _⟩ := index_some hi
    cases hp with
    | name _ hn h' =>
      have : c!":" ∈ h ++ slashes n := by rw [e]; simp
      rw [List.mem_append] at this
      rcases this with hm | hm
      · exact (plain_byte _ (h' _ hm)).2.2.2.1 rfl
      · exact hsl hm
    | port m p hm h' hp hpn =>
      have hcm : c!":" ∉ m := fun hx => (plain_byte _ (h' _ hx)).2.2.2.1 rfl
      have hcp : c!":" ∉ p ++ slashes n := by
        rw [List.mem_append]
        rintro (hx | hx)
        · exact (digit_byte _ (hp _ hx)).2.2.2.1 rfl
        · exact hsl hx
      have e' : m ++ c!":" :: (p ++ slashes n) = a ++ c!":" :: (b!"//" ++ b) := by simpa using e
      have h1 := lastIndexByte_append (a := m) hcp
      have hcb : c!":" ∉ b!"//" ++ b := by
        have h2 := congrArg (List.count c!":") e'
        rw [List.count_append, List.count_cons_self, List.count_eq_zero.mpr hcm, List.count_eq_zero.mpr hcp, List.count_append,
          List.count_cons_self] at h2
        exact List.count_eq_zero.mp (by omega)
      have h2 := lastIndexByte_append (a := a) hcb
      rw [e', h2] at h1
      have hl : a.length = m.length := by simpa using h1
      have := (List.append_inj e' hl.symm).2
      cases p with
      | nil => exact hpn rfl
      | cons c p =>
        simp at this
        exact (digit_byte c (hp c (by simp))).2.2.2.2 this.1

/-- **C103 (addresses without a scheme).** A name without a scheme is an NMDC hub, unless it begins with `adc`. -/
theorem no_scheme (h : Bytes) (p : Option Bytes) (n : Nat) (hp : Plain h p) (ha : ¬ b!"adc" <+: h ++ slashes n) :
    (∃ u, parseAddr goUrl (h ++ slashes n) = .ok u ∧ IsPlain u b!"dchub" h) ∧
    normalizeAddr goUrl (h ++ slashes n) = .ok (b!"dchub://" ++ h) := by
  have := nmdc_plain_text b!"dchub" (h ++ slashes n) h p n (.inl rfl) hp (by rw [hasPrefix_iff]; exact ha) (by
    unfold nmdcText
    rw [plain_no_scheme hp]
    simp)
  simpa using this

/-- **C103 (finding: a host whose name begins with `adc`).** Such a host cannot be given without a scheme: `dc.NormalizeAddr` refuses every
address that begins with `adc` and has no `://`, although `nmdc.NormalizeAddr` takes all plain ones. -/
theorem adc_name_refused (addr : Bytes) (ha : b!"adc" <+: addr) (hn : contains addr b!"://" = false) :
    (∃ e, normalizeAddr goUrl addr = .error e) ∧
    ∀ h p n, Plain h p → addr = h ++ slashes n → ∃ t, nmdcNormalizeAddr goUrl addr = .ok t := by
  have hpre : hasPrefix addr b!"adc" = true := hasPrefix_iff.mpr ha
  constructor
  · cases hr : normalizeAddr goUrl addr with
    | error e => exact ⟨e, rfl⟩
    | ok t =>
      exfalso
      obtain ⟨u, h, hu, hof, hne, _⟩ := (dc_addr goUrl addr).2 t hr
      have hh := hostOf_nonempty hof hne
      obtain ⟨_, _, w, g1, g2, g3⟩ := parsed_full addr u hu hh
      obtain ⟨a, b, e⟩ := (Go.Url.parse_from g1 (by rw [g2]; exact hh)).1 g3
      unfold urlText at e
      rw [if_pos hpre] at e
      rw [e, contains_scheme] at hn
      simp at hn
  · rintro h p n hp rfl
    obtain ⟨v, e1, e2, e3, e4, e5, e6, e7, e8⟩ := parse_plain b!"dchub" h p n (by decide) hp
    have htext : nmdcText (h ++ slashes n) = b!"dchub" ++ b!"://" ++ h ++ slashes n := by
      unfold nmdcText
      rw [plain_no_scheme hp]
      simp
    obtain ⟨u, hu⟩ := (nmdc_parse goUrl (h ++ slashes n)).2.1 ⟨v.scheme, v.host, v.path, v⟩ (by rw [htext]; simp only [goUrl, e1]) (by simp [e2])
    obtain ⟨⟨w, h1, h2, _⟩, _⟩ := (nmdc_parse goUrl (h ++ slashes n)).1 u hu
    have hw : w = ⟨v.scheme, v.host, v.path, v⟩ := by
      rw [htext] at h1
      simp only [goUrl, e1, Except.ok.injEq] at h1
      exact h1.symm
    obtain ⟨m, hm, hx⟩ := plain_hostOf hp
    exact ⟨goUrl.str u, (normalize goUrl (h ++ slashes n) _).2.mpr ⟨u, m, hu, by rw [h2, hw]; show HostOf v.host m; rw [e3]; exact hx, hm, rfl⟩⟩

/-! ## Findings -/

/-- **C103 (finding: zones).** The address of a hub with a zone that holds a letter outside ASCII is normalized to a text that is no
address: normalizing twice fails. -/
theorem zone_lost : ∃ addr t e, normalizeAddr goUrl addr = .ok t ∧ normalizeAddr goUrl t = .error e :=
  ⟨b!"dchub://[fe80::1%25" ++ [0xC3, 0xA9] ++ b!"]:411", b!"dchub://[fe80::1%25%C3%A9]:411", .other 98, by rfl, by rfl⟩

/-- **C103 (finding: escaped slashes).** Two addresses that differ only in a trailing slash can have different normal forms: with the
slash, `%2F` in the path becomes a slash of its own. -/
theorem trailing_slash_matters : ∃ addr t t', normalizeAddr goUrl addr = .ok t ∧ normalizeAddr goUrl (addr ++ b!"/") = .ok t' ∧ t ≠ t' :=
  ⟨b!"dchub://h:411/a%2Fb", b!"dchub://h:411/a%2Fb", b!"dchub://h:411/a/b", by rfl, by rfl, by decide⟩

/-! ## Instances -/

/-- The normal form of a text, for the instances. -/
def normal (s : Bytes) : Option Bytes := (normalizeAddr goUrl s).toOption

example : normal b!"dchub://us%20er:p@hub.org:411/a%2Fb?x#y" = some b!"dchub://us%20er:p@hub.org:411/a%2Fb?x#y" ∧
    normal b!"DCHUB://Hub.org:411/a b/" = some b!"dchub://Hub.org:411/a%20b" ∧ normal b!"[fe80::1%25en 0]:411" = none ∧
    normal b!"[fe80::1%25en%200]:411" = some b!"dchub://[fe80::1%25en%200]:411" ∧ normal b!"hub.org/?" = some b!"dchub://hub.org?" ∧
    normal b!"adc://hub.org" = none ∧ normal b!"adchub.org:411" = none ∧ normal b!"http://hub.org" = none ∧ normal b!":411" = none ∧
    normal b!"ADC://hub.org:411" = none := by decide +kernel
example : ∃ u, parseAddr goUrl b!"[fe80::1%25en%200]:411/%61" = .ok u ∧ ZoneOk u.host ∧ u.host = b!"[fe80::1%en 0]:411" := by
  refine ⟨_, rfl, ?_, rfl⟩
  intro _ a b e c hc
  have : c ∈ b!"[fe80::1%en 0]:411" := by
    have e' : b!"[fe80::1%en 0]:411" = a ++ c!"%" :: b := e
    rw [e']; simp [hc]
  revert c
  intro c _ hc
  have h : ∀ c ∈ b!"[fe80::1%en 0]:411", c < 128 := by decide
  exact h c hc
example : Plain b!"hub.example.org" none ∧ Plain b!"hub-1.example.org:1411" (some b!"1411") :=
  ⟨.name _ (by decide) (by decide), .port b!"hub-1.example.org" b!"1411" (by decide) (by decide) (by decide) (by decide)⟩
example : normal b!"hub.example.org//" = some b!"dchub://hub.example.org" ∧ normal b!"nmdc://hub.example.org:411/" = some b!"dchub://hub.example.org:411" ∧
    normal b!"adcs://hub.example.org:411///" = some b!"adcs://hub.example.org:411" := by decide +kernel
example : ¬ b!"adc" <+: b!"hub.example.org" ++ slashes 2 ∧ b!"adc" <+: b!"adchub.org" ∧ contains b!"adchub.org" b!"://" = false := by decide

end Verif.Props.RealAddresses
