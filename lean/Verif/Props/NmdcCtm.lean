import Verif.Nmdc.Ctm
import Verif.Nmdc.Wire

/-!
# Connection requests (C20)
-/

namespace Verif.Props.NmdcCtm

open Verif.Go Verif.Spec Verif.Nmdc

attribute [local instance] basicEntities

/-- What the encoder accepts: a target, one of the three kinds, and a source exactly for passive requests. -/
theorem ctm_accepted {enc : Codec} {m : ConnectToMe} :
    (∃ w, m.marshal enc = .ok w) ↔
      m.targ ≠ [] ∧ (m.kind = 0 ∨ m.kind = 1 ∨ m.kind = 2) ∧ (m.src ≠ [] ↔ m.kind = 1) ∧
      (∃ t, Name.marshal enc m.targ = .ok t) ∧ (m.kind = 1 → ∃ t, Name.marshal enc m.src = .ok t) := by
  obtain ⟨targ, src, addr, kind, secure⟩ := m
  unfold ConnectToMe.marshal
  simp only
  by_cases ht : targ = []
  · simp [ht]
  rw [if_neg ht]
  cases hn : Name.marshal enc targ with
  | err e => simp
  | panic => simp
  | ok t =>
    simp only [Res.ok_bind]
    by_cases h0 : kind = 0
    · subst h0
      by_cases hs : src = [] <;> simp [hs, ht]
    by_cases h1 : kind = 1
    · subst h1
      by_cases hs : src = []
      · simp [hs]
      · cases hns : Name.marshal enc src with
        | err e => simp [hs]
        | panic => simp [hs]
        | ok u => simp [hs, ht]
    by_cases h2 : kind = 2
    · subst h2
      by_cases hs : src = [] <;> simp [hs, ht]
    · simp [h0, h1, h2]

example : ∃ w, ConnectToMe.marshal none ⟨b!"a", b!"b", b!"1.2.3.4:5", 1, true⟩ = .ok w :=
  ctm_accepted.mpr ⟨by decide, by decide, by decide, ⟨b!"a", rfl⟩, fun _ => ⟨b!"b", rfl⟩⟩

example : ¬ ∃ w, ConnectToMe.marshal none ⟨b!"a", b!"b", b!"1.2.3.4:5", 0, true⟩ = .ok w := by
  rw [ctm_accepted]; rintro ⟨-, -, h, -⟩; exact absurd h (by decide)

/-- A request comes back unchanged when the encoded target and the address hold no space and the address
does not end with a letter that reads as a flag. -/
theorem ctm_roundtrip [HtmlEntities] {enc dec : Codec} (hl : Lossless enc dec) {m : ConnectToMe} {w : Bytes}
    (htarg : NameOk enc m.targ) (hsrc : NameOk enc m.src)
    (hsep : ∀ n, Name.marshal enc m.targ = .ok n → c!" " ∉ n) (haddr : c!" " ∉ m.address)
    (hflag : m.kind = 0 → m.address.getLast? ≠ some c!"N" ∧ m.address.getLast? ≠ some c!"R" ∧
      (m.secure = false → m.address.getLast? ≠ some c!"S"))
    (h : m.marshal enc = .ok w) : ConnectToMe.unmarshal dec {} w = .ok m := by
  obtain ⟨targ, src, addr, kind, secure⟩ := m
  obtain ⟨ht, hk, hs, -, -⟩ := ctm_accepted.mp ⟨w, h⟩
  simp only at htarg hsrc hsep haddr hflag ht hk hs
  unfold ConnectToMe.marshal at h
  simp only [if_neg ht] at h
  obtain ⟨t, htn, h⟩ := Res.bind_eq_ok.mp h
  have hsp := hsep t htn
  have hfl : ctmFlags (addr ++ (if kind = 0 then [] else if kind = 1 then b!"N" else b!"R") ++
      (if secure then b!"S" else [])) = (addr, kind, secure) := by
    unfold ctmFlags
    rcases hk with rfl | rfl | rfl
    · obtain ⟨h1, h2, h3⟩ := hflag rfl
      cases secure with
      | true => simp [h1, h2]
      | false => simp [h1, h2, h3]
    · cases secure <;> simp
    · cases secure <;> simp
  unfold ConnectToMe.unmarshal
  rcases hk with rfl | rfl | rfl
  · have hs' : src = [] := by simpa using hs
    subst hs'
    simp at h
    subst h
    rw [indexByte_append hsp]
    simp only [List.take_left', sliceFrom_append', Res.ok_bind, name_roundtrip hl htarg htn]
    have : c!" " ∉ addr ++ (if secure then b!"S" else []) := by
      cases secure <;> simp [haddr]
    rw [indexByte_none.mpr this]
    simp at hfl
    simp [hfl]
  · have hs' : src ≠ [] := by simpa using hs
    simp [hs'] at h
    obtain ⟨n, hn, hw⟩ := Res.bind_eq_ok.mp h
    cases hw
    rw [indexByte_append hsp]
    simp only [List.take_left', sliceFrom_append', Res.ok_bind, name_roundtrip hl htarg htn]
    have : c!" " ∉ addr ++ c!"N" :: (if secure then b!"S" else []) := by
      cases secure <;> simp [haddr]
    have e : addr ++ c!"N" :: ((if secure = true then [83] else []) ++ c!" " :: n) =
        (addr ++ c!"N" :: (if secure then b!"S" else [])) ++ c!" " :: n := by simp
    rw [e, indexByte_append this]
    simp only [sliceFrom_append', List.take_left', Res.ok_bind, name_roundtrip hl hsrc hn]
    simp at hfl
    simp [hfl]
  · have hs' : src = [] := by simpa using hs
    subst hs'
    simp at h
    subst h
    rw [indexByte_append hsp]
    simp only [List.take_left', sliceFrom_append', Res.ok_bind, name_roundtrip hl htarg htn]
    have : c!" " ∉ addr ++ c!"R" :: (if secure then b!"S" else []) := by
      cases secure <;> simp [haddr]
    rw [indexByte_none.mpr this]
    simp at hfl
    simp [hfl]

example : ∃ w, ConnectToMe.marshal none ⟨b!"pe<er", b!"me & you", b!"192.168.1.2:3000", 1, true⟩ = .ok w ∧
    ConnectToMe.unmarshal none {} w = .ok ⟨b!"pe<er", b!"me & you", b!"192.168.1.2:3000", 1, true⟩ :=
  ⟨_, rfl, ctm_roundtrip lossless_nil (nameOk_of (by decide +kernel)) (nameOk_of (by decide +kernel))
    (by intro n hn; cases hn; decide) (by decide) (by decide) rfl⟩

/-- An address that ends with a flag letter is misread. -/
theorem ctm_flag_misread :
    ∃ w, ConnectToMe.marshal none ⟨b!"a", [], b!"HOSTS", 0, false⟩ = .ok w ∧
      ConnectToMe.unmarshal none {} w = .ok ⟨b!"a", [], b!"HOST", 0, true⟩ := ⟨_, rfl, by decide +kernel⟩

/-- A reverse request comes back unchanged when the encoded sender holds no space. -/
theorem revctm_roundtrip [HtmlEntities] {enc dec : Codec} (hl : Lossless enc dec) {m : RevConnectToMe} {w : Bytes}
    (hfrm : NameOk enc m.frm) (hto : NameOk enc m.to) (hsep : ∀ n, Name.marshal enc m.frm = .ok n → c!" " ∉ n)
    (h : m.marshal enc = .ok w) : RevConnectToMe.unmarshal dec {} w = .ok m := by
  obtain ⟨frm, to⟩ := m
  simp only [RevConnectToMe.marshal, Res.bind_eq_ok, Res.pure_eq, Res.ok.injEq] at h hfrm hto hsep
  obtain ⟨a, ha, b, hb, rfl⟩ := h
  have e : a ++ b!" " ++ b = a ++ c!" " :: b := by simp
  unfold RevConnectToMe.unmarshal
  rw [e, indexByte_append (hsep a ha)]
  simp [name_roundtrip hl hfrm ha, name_roundtrip hl hto hb]

example : ∃ w, RevConnectToMe.marshal none ⟨b!"me|you", b!"peer one"⟩ = .ok w ∧
    RevConnectToMe.unmarshal none {} w = .ok ⟨b!"me|you", b!"peer one"⟩ :=
  ⟨_, rfl, revctm_roundtrip lossless_nil (nameOk_of (by decide +kernel)) (nameOk_of (by decide +kernel))
    (by intro n hn; cases hn; decide) rfl⟩

end Verif.Props.NmdcCtm
