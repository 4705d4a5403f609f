import Verif.Props.NmdcExactInfo

/-!
# Which NMDC messages come back as they were (C91)
-/

namespace Verif.Props.NmdcBack

open Verif.Go Verif.Spec Verif.Nmdc Verif.Tiger Verif.Spec.NmdcBack

/-- C91: a message of any type can be written, and what is written is read as the same message by a fresh message of its type, exactly if its
fields meet the conditions of `Verif.Spec.NmdcBack`. The order in which a map is iterated does not matter. -/
theorem message_back [HtmlEntities] {ord : StrMap → StrMap} (hord : ∀ s, (ord s).Perm s) {m : Msg} (hm : Mapped m) :
    (∃ w m', m.marshal none ord = .ok w ∧ m.fresh.unmarshal none w = .ok m' ∧ Same m m') ↔ Back m := by
  by_cases hi : ∃ x, m = .myINFO x
  · obtain ⟨x, rfl⟩ := hi
    rw [show Back (.myINFO x) = Info x from rfl, ← NmdcExact.myINFO_back (hord x.extra) hm]
    constructor
    · rintro ⟨w, m', h1, h2, h3⟩
      cases h3 with
      | refl => exact ⟨w, x.extra, h1, List.Perm.refl _, h2⟩
      | info _ h => exact ⟨w, _, h1, h, h2⟩
    · rintro ⟨w, e, h1, h2, h3⟩
      exact ⟨w, _, h1, h3, .info _ h2⟩
  · have hc : (∃ w m', m.marshal none ord = .ok w ∧ m.fresh.unmarshal none w = .ok m' ∧ Same m m') ↔ NmdcExact.Comes ord m := by
      constructor
      · rintro ⟨w, m', h1, h2, h3⟩
        cases h3 with
        | refl => exact ⟨w, h1, h2⟩
        | info x _ => exact absurd ⟨x, rfl⟩ hi
      · rintro ⟨w, h1, h2⟩
        exact ⟨w, m, h1, h2, .refl m⟩
    rw [hc]
    cases m with
    | chat m => exact NmdcExact.chat_back
    | priv m => exact NmdcExact.priv_back
    | mcTo m => exact NmdcExact.mcTo_back
    | userCommand m => exact NmdcExact.userCommand_back
    | connectToMe m => exact NmdcExact.ctm_back
    | revConnectToMe m => exact NmdcExact.rctm_back
    | errMsg k e => exact NmdcExact.err_back
    | name k n => exact NmdcExact.name_back
    | text k s => exact NmdcExact.text_back
    | noArgs k => exact ⟨fun _ => trivial, fun _ => NmdcExact.plain_back.1 k⟩
    | value k s => exact ⟨fun _ => trivial, fun _ => NmdcExact.plain_back.2.1 k s⟩
    | failOver l => exact NmdcExact.hosts_back
    | supports l => exact NmdcExact.words_back
    | lock m => exact NmdcExact.lock_back
    | hubINFO m => exact NmdcExact.hub_back
    | names k l => exact NmdcExact.names_back
    | userIP l => exact NmdcExact.userIP_back
    | adcGet m => exact NmdcExact.get_back
    | adcSnd m => exact NmdcExact.snd_back
    | direction m => exact NmdcExact.direction_back
    | search m => exact NmdcExact.search_back
    | sr m => exact NmdcExact.sr_back
    | sa m => exact ⟨fun _ => trivial, fun _ => NmdcExact.plain_back.2.2.1 m⟩
    | sp m => exact NmdcExact.sp_back
    | myINFO m => exact absurd ⟨m, rfl⟩ hi
    | raw t d => exact ⟨fun _ => trivial, fun _ => NmdcExact.plain_back.2.2.2 t d⟩

/-! ### Messages that come back, and messages that do not -/

section
local instance : HtmlEntities := basicEntities

/-- Computed, not assumed: what is written is read as the same message. -/
def comesBack (m : Msg) : Bool :=
  match m.marshal none id with
  | .ok w => m.fresh.unmarshal none w == .ok m
  | _ => false

theorem comesBack_iff {m : Msg} (hm : Mapped m) (hi : ∀ x, m ≠ .myINFO x) : comesBack m = true ↔ Back m := by
  rw [← message_back (ord := id) (fun s => List.Perm.refl s) hm]
  unfold comesBack
  constructor
  · intro h
    split at h
    · rename_i w hw
      exact ⟨w, m, hw, by simpa using h, .refl m⟩
    · cases h
  · rintro ⟨w, m', h1, h2, h3⟩
    cases h3 with
    | refl => rw [h1]; simp [h2]
    | info x _ => exact absurd rfl (hi x)

example : Back (.chat ⟨b!"joe", b!"a | b & c $ <d>"⟩) := (comesBack_iff (by exact trivial) (by simp)).mp (by decide +kernel)
example : ¬ Back (.chat ⟨[], b!"<joe> hi"⟩) := fun h => absurd ((comesBack_iff (by exact trivial) (by simp)).mpr h) (by decide +kernel)
example : Back (.priv { to := b!"a b", frm := b!"joe", name := b!"joe", text := b!"5 < 6" }) := (comesBack_iff (by exact trivial) (by simp)).mp (by decide +kernel)
example : ¬ Back (.priv { to := b!"x From: y", frm := b!"joe", name := b!"joe", text := b!"5 < 6" }) := fun h => absurd ((comesBack_iff (by exact trivial) (by simp)).mpr h) (by decide +kernel)
example : Back (.mcTo { to := b!"a b", frm := b!"joe", text := b!"&" }) := (comesBack_iff (by exact trivial) (by simp)).mp (by decide +kernel)
example : ¬ Back (.mcTo { to := b!"a", frm := b!"j e", text := b!"&" }) := fun h => absurd ((comesBack_iff (by exact trivial) (by simp)).mpr h) (by decide +kernel)
example : Back (.userCommand { typ := 1, context := 3, path := [b!"a b", b!"c"], command := b!"$Kick x|" }) := (comesBack_iff (by exact trivial) (by simp)).mp (by decide +kernel)
example : ¬ Back (.userCommand { typ := 1, context := 3, path := [b!"a", b!"c "], command := b!"$Kick x|" }) := fun h => absurd ((comesBack_iff (by exact trivial) (by simp)).mpr h) (by decide +kernel)
example : Back (.connectToMe { targ := b!"joe", address := b!"1.2.3.4:412", secure := true }) := (comesBack_iff (by exact trivial) (by simp)).mp (by decide +kernel)
example : ¬ Back (.connectToMe { targ := b!"joe", address := b!"hostS" }) := fun h => absurd ((comesBack_iff (by exact trivial) (by simp)).mpr h) (by decide +kernel)
example : Back (.revConnectToMe { frm := b!"joe", to := b!"a b" }) := (comesBack_iff (by exact trivial) (by simp)).mp (by decide +kernel)
example : ¬ Back (.revConnectToMe { frm := b!"j e", to := b!"a" }) := fun h => absurd ((comesBack_iff (by exact trivial) (by simp)).mpr h) (by decide +kernel)
example : Back (.errMsg .error (some b!"no | way")) := (comesBack_iff (by exact trivial) (by simp)).mp (by decide +kernel)
example : ¬ Back (.errMsg .error (some [])) := fun h => absurd ((comesBack_iff (by exact trivial) (by simp)).mpr h) (by decide +kernel)
example : Back (.name .hello b!"j|e") := (comesBack_iff (by exact trivial) (by simp)).mp (by decide +kernel)
example : ¬ Back (.name .hello b!"j$e") := fun h => absurd ((comesBack_iff (by exact trivial) (by simp)).mpr h) (by decide +kernel)
example : Back (.text .hubName b!"a & b") := (comesBack_iff (by exact trivial) (by simp)).mp (by decide +kernel)
example : ¬ Back (.text .hubName b!"a /%DCN036%/ b") := fun h => absurd ((comesBack_iff (by exact trivial) (by simp)).mpr h) (by decide +kernel)
example : Back (.failOver [b!"a", [], b!"b"]) := (comesBack_iff (by exact trivial) (by simp)).mp (by decide +kernel)
example : ¬ Back (.failOver [b!"a,b"]) := fun h => absurd ((comesBack_iff (by exact trivial) (by simp)).mpr h) (by decide +kernel)
example : Back (.supports [b!"ZLIG", b!"TTHSearch"]) := (comesBack_iff (by exact trivial) (by simp)).mp (by decide +kernel)
example : ¬ Back (.supports [b!"a", []]) := fun h => absurd ((comesBack_iff (by exact trivial) (by simp)).mpr h) (by decide +kernel)
example : Back (.lock { lock := b!"x", noExt := true, pk := b!"y", ref := b!"z" }) := (comesBack_iff (by exact trivial) (by simp)).mp (by decide +kernel)
example : Back (.hubINFO { name := b!"n$", desc := b!"d", host := b!"h", i1 := -5, soft := ⟨b!"s s", b!"1"⟩ }) := (comesBack_iff (by exact trivial) (by simp)).mp (by decide +kernel)
example : ¬ Back (.hubINFO { name := b!"n", host := b!"h$" }) := fun h => absurd ((comesBack_iff (by exact trivial) (by simp)).mpr h) (by decide +kernel)
example : Back (.names .opList [b!"a", [], b!"b"]) := (comesBack_iff (by exact trivial) (by simp)).mp (by decide +kernel)
example : ¬ Back (.names .opList [[]]) := fun h => absurd ((comesBack_iff (by exact trivial) (by simp)).mpr h) (by decide +kernel)
example : Back (.userIP [⟨b!"a", b!"1.2.3.4"⟩, ⟨b!"b", []⟩]) := (comesBack_iff (by exact trivial) (by simp)).mp (by decide +kernel)
example : ¬ Back (.userIP [⟨b!"a", b!"1.2.3.4$"⟩, ⟨b!"b", []⟩]) := fun h => absurd ((comesBack_iff (by exact trivial) (by simp)).mpr h) (by decide +kernel)
example : Back (.adcGet { contentType := b!"file", identifier := b!"TTH/x", start := 5, length := -1, downloaded := some 7 }) := (comesBack_iff (by exact trivial) (by simp)).mp (by decide +kernel)
example : ¬ Back (.adcGet { contentType := b!"file", identifier := b!"a b", start := 5, length := -1 }) := fun h => absurd ((comesBack_iff (by exact trivial) (by simp)).mpr h) (by decide +kernel)
example : Back (.adcSnd { contentType := b!"file", identifier := b!"TTH/x", start := 5, length := 18446744073709551615 }) := (comesBack_iff (by exact trivial) (by simp)).mp (by decide +kernel)
example : ¬ Back (.adcSnd { contentType := b!"file", identifier := b!"a b", start := 5, length := 1 }) := fun h => absurd ((comesBack_iff (by exact trivial) (by simp)).mpr h) (by decide +kernel)
example : Back (.direction { upload := true, number := 32767 }) := (comesBack_iff (by exact trivial) (by simp)).mp (by decide +kernel)
example : ¬ Back (.direction { upload := true, number := 0 }) := fun h => absurd ((comesBack_iff (by exact trivial) (by simp)).mpr h) (by decide +kernel)
example : Back (.search { user := b!"joe", sizeRestricted := true, size := 10, dataType := 1, pattern := b!"a b" }) := (comesBack_iff (by exact trivial) (by simp)).mp (by decide +kernel)
example : ¬ Back (.search { user := b!"joe", sizeRestricted := false, size := 10, dataType := 1, pattern := b!"a b" }) := fun h => absurd ((comesBack_iff (by exact trivial) (by simp)).mpr h) (by decide +kernel)
example : Back (.sr { src := b!"joe", path := [b!"a b", b!"c"], size := 7, freeSlots := 1, totalSlots := 2, hubName := b!"hub", hubAddress := b!"h:1", dst := b!"al" }) := (comesBack_iff (by exact trivial) (by simp)).mp (by decide +kernel)
example : ¬ Back (.sr { src := b!"joe", path := [b!"a", b!"b/c"], isDir := true, size := 7 }) := fun h => absurd ((comesBack_iff (by exact trivial) (by simp)).mpr h) (by decide +kernel)
example : Back (.sp { user := b!"joe" }) := (comesBack_iff (by exact trivial) (by simp)).mp (by decide +kernel)
example : ¬ Back (.sp { user := b!"a$" }) := fun h => absurd ((comesBack_iff (by exact trivial) (by simp)).mpr h) (by decide +kernel)
example : ¬ Back (.lock { lock := b!"EXTENDEDPROTOCOLx", noExt := true, pk := b!"y", ref := b!"z" }) := fun h => absurd ((comesBack_iff (by exact trivial) (by simp)).mpr h) (by decide +kernel)

/-- The extra fields are written, and come back, in another order. -/
example : Back (.myINFO
    { name := b!"joe", desc := b!"<a & b|", client := ⟨b!"++", b!"0.7"⟩, mode := c!"A", hubsNormal := -1, slots := 3,
      conn := b!"100", extra := [(b!"Ext", b!"a:b>"), (b!"L", b!"10")], flag := 1, email := b!"a$b", shareSize := 18446744073709551615 }) :=
  (message_back (ord := List.reverse) List.reverse_perm (by unfold Mapped; decide)).mp
    ⟨_, .myINFO
      { name := b!"joe", desc := b!"<a & b|", client := ⟨b!"++", b!"0.7"⟩, mode := c!"A", hubsNormal := -1, slots := 3,
        conn := b!"100", extra := [(b!"L", b!"10"), (b!"Ext", b!"a:b>")], flag := 1, email := b!"a$b", shareSize := 18446744073709551615 }, rfl,
      by decide +kernel, .info _ (by decide)⟩

/-- A mode that is not set is read as a space. -/
example : ¬ Back (.myINFO { name := b!"joe", flag := 1 }) := fun h => h.2.2.2.2.2.2.1 rfl

end

end Verif.Props.NmdcBack
