import Verif.Adc.Pid
import Verif.Props.HashVar

/-!
# C115: private identifiers and the client identifiers made from them
-/

namespace Verif.Props.PrivateIds

open Verif.Go Verif.Adc Verif.Tiger

/-- The contract of `io.Reader` for a buffer of 24 bytes: the first bytes are those of `data`, the others stay. -/
def Reads (read : RandomRead) (data : Bytes) (err : Option Err) : Prop :=
  data.length ≤ 24 ∧ ∀ h, ∃ h' : Hash, read h = (h', data.length, err) ∧ h'.bytes = data ++ h.bytes.drop data.length

/-- **C115.** A new identifier is what the random source gave, completed with zeros; the error is that of the source. -/
theorem new_pid {read : RandomRead} {data : Bytes} {err : Option Err} (h : Reads read data err) :
    (newPID read).1.bytes = data ++ List.replicate (24 - data.length) 0 ∧ (newPID read).2 = err := by
  obtain ⟨h', e, hb⟩ := h.2 .zero
  unfold newPID
  rw [e]
  refine ⟨?_, rfl⟩
  simp only [hb, Hash.zero]
  rw [List.drop_replicate]

/-- If the source fills the buffer, as that of the operating system does, the identifier is exactly what it gave. -/
theorem new_pid_full {read : RandomRead} {data : Bytes} {err : Option Err} (h : Reads read data err) (hn : data.length = 24) :
    (newPID read).1.bytes = data := by
  rw [(new_pid h).1, hn]; simp

/-- Then two identifiers are the same exactly if the source gave the same bytes twice. -/
theorem new_pid_distinct {r1 r2 : RandomRead} {d1 d2 : Bytes} {e1 e2 : Option Err} (h1 : Reads r1 d1 e1) (h2 : Reads r2 d2 e2)
    (n1 : d1.length = 24) (n2 : d2.length = 24) : (newPID r1).1 = (newPID r2).1 ↔ d1 = d2 := by
  have a := new_pid_full h1 n1
  have b := new_pid_full h2 n2
  constructor
  · intro h; rw [← a, ← b, h]
  · intro h
    cases h' : (newPID r1).1
    cases h'' : (newPID r2).1
    rw [h'] at a
    rw [h''] at b
    simp only at a b
    subst a; subst b; subst h; rfl

/-- A source that gives less than was asked for, which a reader may do without an error, makes an identifier that ends with zeros, also without
an error: `NewPID` does not look at the number. -/
theorem short_read_unnoticed : ∃ read : RandomRead, Reads read [0xAB] none ∧
    newPID read = (⟨[0xAB] ++ List.replicate 23 0, by decide⟩, none) := by
  refine ⟨fun h => (⟨[0xAB] ++ h.bytes.drop 1, by simp [h.size]⟩, 1, none), ⟨by decide, fun h => ⟨_, rfl, rfl⟩⟩, ?_⟩
  rfl

/-- **C115.** With a hash function of 24 bytes that takes everything, the client identifier is the digest of the private one. -/
theorem cid_of_pid (T : Hasher) (pid : CID) (hw : T.write pid.bytes = none) (hd : (T.digest pid.bytes).length = 24) :
    ∃ cid : CID, CID.hash T pid = .ok cid ∧ cid.bytes = T.digest pid.bytes := by
  unfold CID.hash hashBytes
  rw [hw]
  refine ⟨_, rfl, ?_⟩
  unfold sumInto
  rw [dif_pos (by omega)]
  simp [hd]

/-- With a hash function of another size: a shorter digest is completed with zeros, a longer one is not used at all. -/
theorem cid_other_size (T : Hasher) (pid : CID) (hw : T.write pid.bytes = none) :
    ((T.digest pid.bytes).length ≤ 24 → ∃ cid : CID, CID.hash T pid = .ok cid ∧
      cid.bytes = T.digest pid.bytes ++ List.replicate (24 - (T.digest pid.bytes).length) 0) ∧
    (24 < (T.digest pid.bytes).length → CID.hash T pid = .ok .zero) := by
  unfold CID.hash hashBytes
  rw [hw]
  constructor
  · intro h
    refine ⟨_, rfl, ?_⟩
    unfold sumInto
    rw [dif_pos h]
  · intro h
    show Res.ok (sumInto _) = _
    unfold sumInto
    rw [dif_neg (by omega)]

/-- Two private identifiers with the same client identifier are a collision of the hash function. -/
theorem same_cid (T : Hasher) {p q : CID} (hw : ∀ b, T.write b = none) (hd : ∀ b, (T.digest b).length = 24) (h : CID.hash T p = CID.hash T q) :
    p = q ∨ (p.bytes ≠ q.bytes ∧ T.digest p.bytes = T.digest q.bytes) := by
  obtain ⟨c, hc, hcb⟩ := cid_of_pid T p (hw _) (hd _)
  obtain ⟨c', hc', hcb'⟩ := cid_of_pid T q (hw _) (hd _)
  rw [hc, hc'] at h
  cases h
  by_cases hpq : p.bytes = q.bytes
  · left; cases p; cases q; cases hpq; rfl
  · exact .inr ⟨hpq, by rw [← hcb, ← hcb']⟩

/-- The text of a new identifier gives it back. -/
theorem pid_text (read : RandomRead) : mustParse (newPID read).1.string = .ok (newPID read).1 :=
  (HashVar.forms_back _ .zero).2.2.2

/-! ## Examples -/

/-- A hash function for examples: the first 24 bytes, completed with zeros. -/
def toyHasher : Hasher := ⟨fun _ => none, fun b => (b ++ List.replicate 24 0).take 24⟩

example : ∃ read : RandomRead, Reads read (List.range 24 |>.map UInt8.ofNat) none ∧ (newPID read).1.bytes.getLast? = some 23 := by
  refine ⟨fun _ => (⟨List.range 24 |>.map UInt8.ofNat, by decide⟩, 24, none), ⟨by decide, fun h => ⟨_, rfl, ?_⟩⟩, by decide⟩
  rw [List.drop_of_length_le (by simp [h.size])]
  simp

example : CID.hash toyHasher ⟨List.replicate 24 7, by decide⟩ = .ok ⟨List.replicate 24 7, by decide⟩ ∧
    (∀ b, (toyHasher.digest b).length = 24) := ⟨rfl, fun b => by simp [toyHasher]⟩

end Verif.Props.PrivateIds
