import Verif.Props.NmdcReads
import Verif.Props.CodePages

/-! # The texts of received NMDC messages are UTF-8 -/

namespace Verif.Props.NmdcValid

open Verif.Go Verif.Nmdc Verif.Spec Verif.Spec.NmdcReads

/-- The fields of a message that are names or texts for people: those of the types `Name` and `String`, and the words of a search. -/
def texts : Msg → List Bytes
  | .chat m => [m.name, m.text]
  | .priv m => [m.to, m.frm, m.name, m.text]
  | .mcTo m => [m.to, m.frm, m.text]
  | .userCommand m => m.command :: m.path
  | .connectToMe m => [m.targ, m.src]
  | .revConnectToMe m => [m.frm, m.to]
  | .errMsg _ e => e.toList
  | .name _ n => [n]
  | .text _ s => [s]
  | .hubINFO m => [m.name, m.desc, m.owner, m.state]
  | .names _ l => l
  | .userIP l => l.map (·.name)
  | .adcGet m => [m.contentType, m.identifier]
  | .adcSnd m => [m.contentType, m.identifier]
  | .search m => [m.user, m.pattern]
  | .sr m => [m.src, m.hubName, m.dst]
  | .sp m => [m.user]
  | .myINFO m => [m.name, m.desc, m.conn, m.email]
  | _ => []

/-- The texts of a message are UTF-8. -/
def Valid (m : Msg) : Prop := ∀ t ∈ texts m, IsUtf8 t

theorem nil_utf8 : IsUtf8 [] := ⟨[], by simp, rfl⟩

theorem map_utf8 {f : Byte → Byte} {g : Nat → Nat} (h : ∀ r, IsScalar r → IsScalar (g r) ∧ (utf8 r).map f = utf8 (g r)) {s : Bytes} (hs : IsUtf8 s) :
    IsUtf8 (s.map f) := by
  obtain ⟨rs, h1, rfl⟩ := hs
  refine ⟨rs.map g, ?_, ?_⟩
  · intro r hr
    obtain ⟨x, hx, rfl⟩ := List.mem_map.1 hr
    exact (h x (h1 x hx)).1
  · induction rs with
    | nil => rfl
    | cons r rs ih =>
      rw [List.flatMap_cons, List.map_append, (h r (h1 r (by simp))).2, List.map_cons, List.flatMap_cons, ih (fun x hx => h1 x (by simp [hx]))]

/-- Spaces for dollars keep a text valid. -/
theorem pattern_utf8 {s : Bytes} (hs : IsUtf8 s) : IsUtf8 (s.map fun c => if c = c!"$" then c!" " else c) := by
  refine map_utf8 (g := fun r => if r = 36 then 32 else r) ?_ hs
  intro r hr
  by_cases h : r = 36
  · subst h; exact ⟨by left; decide, rfl⟩
  · rw [if_neg h]
    refine ⟨hr, ?_⟩
    by_cases h2 : r < 128
    · rw [utf8, if_pos h2]
      have : UInt8.ofNat r ≠ c!"$" := by
        intro e
        have := congrArg UInt8.toNat e
        rw [toNat_ofNat_lt (by omega)] at this
        exact h this
      simp only [List.map_cons, List.map_nil, if_neg this]
    · have hh := CodePages.utf8_high (by omega) hr
      conv => rhs; rw [← List.map_id (utf8 r)]
      apply List.map_congr_left
      intro c hc
      have : c ≠ c!"$" := by
        rintro rfl
        exact absurd (hh _ hc) (by decide)
      simp [this]

section
variable [HtmlEntities] {dec : Codec}

theorem text_valid {d s : Bytes} (h : ReadsText dec d s) : IsUtf8 s := by obtain ⟨_, _, _, _, h⟩ := h; exact h

theorem name_valid {d s : Bytes} (h : ReadsName dec d s) : IsUtf8 s := by obtain ⟨_, _, _, _, _, h⟩ := h; exact h

theorem texts_valid {ds ss : List Bytes} (h : ReadsTexts dec ds ss) : ∀ s ∈ ss, IsUtf8 s := by
  induction h with
  | nil => simp
  | cons h _ ih => 
    intro s hs
    rcases List.mem_cons.1 hs with rfl | hs
    · exact text_valid h
    · exact ih s hs

theorem names_valid {ds ss : List Bytes} (h : ReadsNames dec ds ss) : ∀ s ∈ ss, IsUtf8 s := by
  induction h with
  | nil => simp
  | cons h _ ih => 
    intro s hs
    rcases List.mem_cons.1 hs with rfl | hs
    · exact name_valid h
    · exact ih s hs

theorem addresses_valid {ds : List Bytes} {as : List UserAddress} (h : ReadsAddresses dec ds as) : ∀ a ∈ as, IsUtf8 a.name := by
  induction h with
  | nil => simp
  | cons h _ ih =>
    intro s hs
    rcases List.mem_cons.1 hs with rfl | hs
    · rcases h with ⟨_, _, h⟩ | ⟨_, _, h⟩ <;> exact name_valid h
    · exact ih s hs

theorem field_valid {fs : List Bytes} {i : Nat} {s old : Bytes} (h : Field fs i (ReadsText dec · s) (s = old)) (ho : IsUtf8 old) : IsUtf8 s := by
  unfold Field at h
  split at h
  · exact text_valid h
  · rw [h]; exact ho

omit [HtmlEntities] in
theorem field_conn {f : Bytes} {b : Bool} {s s' : Bytes × MyINFO} (h : ReadsTagField b s f s') : s'.2.conn = s.2.conn := by
  cases h <;> try rfl
  rename_i h; cases h <;> rfl

omit [HtmlEntities] in
theorem fields_conn {fs : List Bytes} {b : Bool} {s s' : Bytes × MyINFO} (h : ReadsTagFields b s fs s') : s'.2.conn = s.2.conn := by
  induction h with
  | nil => rfl
  | cons h _ ih => rw [ih, field_conn h]

omit [HtmlEntities] in
theorem desc_conn {m m' : MyINFO} {f desc : Bytes} {b : Bool} (h : ReadsDesc m f desc m' b) : m'.conn = m.conn := by
  cases h with
  | plain => rfl
  | tag _ _ _ h =>
    obtain ⟨c, r, fs, c', m1, _, _, h3, rfl⟩ := h
    exact fields_conn h3

/-- **The texts are UTF-8.**  Whatever the bytes and the decoder, a value whose texts are UTF-8 (like a new one) that decodes a message without an error
has texts that are UTF-8. -/
theorem valid_read {old m : Msg} {d : Bytes} (ho : Valid old) (h : old.unmarshal dec d = .ok m) : Valid m := by
  replace h := NmdcReads.message_reads.mp h
  cases old <;> simp only [Reads] at h
  case chat o =>
    obtain ⟨x, rfl, h⟩ := h
    have h1 : IsUtf8 o.name := ho _ (by simp [texts])
    intro t ht
    simp only [texts, List.mem_cons, List.not_mem_nil, or_false] at ht
    rcases h with ⟨_, e, h⟩ | ⟨_, _, _, _, _, hn, h⟩
    · rcases ht with rfl | rfl
      · rw [e]; exact h1
      · exact text_valid h
    · rcases ht with rfl | rfl
      · exact name_valid hn
      · exact text_valid h
  case priv o =>
    obtain ⟨x, rfl, _, _, _, _, _, _, _, _, _, h1, h2, h3, h4⟩ := h
    intro t ht
    simp only [texts, List.mem_cons, List.not_mem_nil, or_false] at ht
    rcases ht with rfl | rfl | rfl | rfl
    · exact name_valid h1
    · exact name_valid h2
    · exact name_valid h3
    · exact text_valid h4
  case mcTo o =>
    obtain ⟨x, rfl, _, _, _, _, _, _, h1, h2, h3⟩ := h
    intro t ht
    simp only [texts, List.mem_cons, List.not_mem_nil, or_false] at ht
    rcases ht with rfl | rfl | rfl
    · exact name_valid h1
    · exact name_valid h2
    · exact text_valid h3
  case userCommand o =>
    obtain ⟨x, rfl, _, _, _, _, _, _, h⟩ := h
    intro t ht
    simp only [texts, List.mem_cons] at ht
    rcases h with ⟨_, _, _, _, h1, h2⟩ | ⟨_, _, _, _, _, _, _, _, _, _, _, _, _, _, _, _, h1, h2⟩
    · apply ho
      rcases ht with rfl | ht
      · rw [h2]; simp [texts]
      · rw [h1] at ht; simp [texts, ht]
    · rcases ht with rfl | ht
      · exact text_valid h2
      · exact texts_valid h1 t ht
  case connectToMe o =>
    obtain ⟨x, rfl, _, _, _, _, _, h1, _, _, h⟩ := h
    have h0 : IsUtf8 o.src := ho _ (by simp [texts])
    intro t ht
    simp only [texts, List.mem_cons, List.not_mem_nil, or_false] at ht
    rcases ht with rfl | rfl
    · exact name_valid h1
    · rcases h with ⟨_, _, h⟩ | ⟨_, _, h⟩
      · rw [h]; exact h0
      · exact name_valid h
  case revConnectToMe o =>
    obtain ⟨x, rfl, _, _, _, h1, h2⟩ := h
    intro t ht
    simp only [texts, List.mem_cons, List.not_mem_nil, or_false] at ht
    rcases ht with rfl | rfl
    · exact name_valid h1
    · exact name_valid h2
  case errMsg k o =>
    obtain ⟨x, rfl, s, h1, h2⟩ := h
    rcases h2 with ⟨_, rfl⟩ | ⟨_, rfl⟩
    · exact ho
    · intro t ht
      simp only [texts, Option.toList, List.mem_cons, List.not_mem_nil, or_false] at ht
      rw [ht]; exact text_valid h1
  case name k o =>
    obtain ⟨x, rfl, h⟩ := h
    intro t ht
    simp only [texts, List.mem_cons, List.not_mem_nil, or_false] at ht
    rw [ht]; exact name_valid h
  case text k o =>
    obtain ⟨x, rfl, h⟩ := h
    intro t ht
    simp only [texts, List.mem_cons, List.not_mem_nil, or_false] at ht
    rw [ht]; exact text_valid h
  case hubINFO o =>
    obtain ⟨x, rfl, fs, _, h0, _, h2, _, _, _, _, _, h8, h9, _⟩ := h
    intro t ht
    simp only [texts, List.mem_cons, List.not_mem_nil, or_false] at ht
    rcases ht with rfl | rfl | rfl | rfl
    · exact field_valid h0 (ho _ (by simp [texts]))
    · exact field_valid h2 (ho _ (by simp [texts]))
    · exact field_valid h8 (ho _ (by simp [texts]))
    · exact field_valid h9 (ho _ (by simp [texts]))
  case names k o =>
    obtain ⟨l, rfl, r, _, h⟩ := h
    rcases h with ⟨_, rfl⟩ | ⟨_, _, _, h⟩
    · intro t ht; simp [texts] at ht
    · exact names_valid h
  case userIP o =>
    obtain ⟨l, rfl, _, _, _, _, _, _, h⟩ := h
    intro t ht
    obtain ⟨a, ha, rfl⟩ := List.mem_map.1 ht
    exact addresses_valid h a ha
  case adcGet o =>
    obtain ⟨x, rfl, _, _, _, ⟨_, _, _, _, _, _, _, _, _, h1, h2, _⟩, _⟩ := h
    intro t ht
    simp only [texts, List.mem_cons, List.not_mem_nil, or_false] at ht
    rcases ht with rfl | rfl
    · exact text_valid h1
    · exact text_valid h2
  case adcSnd o =>
    obtain ⟨x, rfl, _, _, ⟨_, _, _, _, _, _, _, _, _, h1, h2, _⟩, _⟩ := h
    intro t ht
    simp only [texts, List.mem_cons, List.not_mem_nil, or_false] at ht
    rcases ht with rfl | rfl
    · exact text_valid h1
    · exact text_valid h2
  case search o =>
    obtain ⟨x, rfl, _, _, _, _, _, _, _, _, _, _, _, _, h1, _, _, _, _, _, _, _, _, h2⟩ := h
    intro t ht
    simp only [texts, List.mem_cons, List.not_mem_nil, or_false] at ht
    rcases ht with rfl | rfl
    · rcases h1 with ⟨_, _, h, _⟩ | ⟨_, _, h⟩
      · exact name_valid h
      · rw [h]; exact ho _ (by simp [texts])
    · rcases h2 with ⟨_, h, _⟩ | ⟨_, _, s, h, h'⟩
      · rw [h]; exact ho _ (by simp [texts])
      · rw [h']; exact pattern_utf8 (text_valid h)
  case sr o =>
    obtain ⟨x, rfl, _, _, _, _, _, _, _, _, _, _, _, _, _, h1, _, _, _, _, _, _, _, h2, _, _, h3⟩ := h
    intro t ht
    simp only [texts, List.mem_cons, List.not_mem_nil, or_false] at ht
    rcases ht with rfl | rfl | rfl
    · exact name_valid h1
    · rcases h2 with ⟨_, _, _, _, _, _, h⟩ | ⟨_, _, _, _, h⟩
      · rw [h]; exact ho _ (by simp [texts])
      · exact text_valid h
    · rcases h3 with ⟨_, h⟩ | ⟨_, _, _, h⟩
      · rw [h]; exact ho _ (by simp [texts])
      · exact name_valid h
  case sp o =>
    obtain ⟨x, rfl, _, _, _, _, _, h⟩ := h
    intro t ht
    simp only [texts, List.mem_cons, List.not_mem_nil, or_false] at ht
    rw [ht]; exact name_valid h
  case myINFO o =>
    obtain ⟨x, rfl, _, _, _, _, _, _, _, _, _, m1, _, _, conn, _, _, _, h1, h2, h3, h4, h5, _, h6⟩ := h
    intro t ht
    simp only [texts, List.mem_cons, List.not_mem_nil, or_false] at ht
    rcases ht with rfl | rfl | rfl | rfl
    · exact name_valid h1
    · exact text_valid h3
    · rw [h6]
      rcases h4 with ⟨_, h, _⟩ | ⟨_, _, h⟩
      · show IsUtf8 conn
        rw [h, desc_conn h2]; exact ho _ (by simp [texts])
      · exact text_valid h
    · exact text_valid h5
  case noArgs k => obtain ⟨rfl, _⟩ := h; intro t ht; simp [texts] at ht
  all_goals first
    | (obtain ⟨x, rfl, _⟩ := h; intro t ht; simp [texts] at ht)
    | (subst h; intro t ht; simp [texts] at ht)

omit [HtmlEntities] in
/-- New messages have such texts, so `ReadMsg` gives only such ones. -/
theorem valid_new (typ : Bytes) : Valid (newMessage typ) := by
  unfold newMessage
  cases h : lookup typ with
  | none => intro t ht; simp [texts] at ht
  | some m =>
    have hm : m ∈ registered := List.mem_of_find?_eq_some h
    have : ∀ m ∈ registered, ∀ t ∈ texts m, t = [] := by decide +kernel
    intro t ht
    rw [this m hm t ht]; exact nil_utf8

end

end Verif.Props.NmdcValid
