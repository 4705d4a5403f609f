import Verif.Props.ShownLemmas
import Verif.Props.NmdcRelayLemmas

/-!
# C113: flags of users, and messages as text

Findings are among the examples at the end: `FlagTLS` is set by one direction alone, and a text without a name can be shown as somebody's message.
-/

namespace Verif.Props.Shown

open Verif.Go Verif.Spec.Shown Verif.Spec.NmdcWire

/-- A flag is set exactly if the two have one of the eight flags in common. -/
theorem flag_isSet (f g : Byte) : Nmdc.UserFlag.isSet f g = true ↔ ∃ i, i < 8 ∧ Has f.toNat i ∧ Has g.toNat i := by
  have hb : ∀ (x : Byte) i, Has (x.toNat : Int) i ↔ x.toNat.testBit i = true := by
    intro x i
    unfold Has
    rw [Nat.testBit_eq_decide_div_mod_eq, decide_eq_true_iff]
    have : ((x.toNat / 2 ^ i % 2 : Nat) : Int) = (x.toNat : Int) / 2 ^ i % 2 := by simp
    omega
  have hz : ∀ x : Byte, x ≠ 0 ↔ ∃ i, i < 8 ∧ x.toNat.testBit i = true := by
    apply forall_byte
    decide +kernel
  unfold Nmdc.UserFlag.isSet
  rw [bne_iff_ne, hz]
  simp only [hb, UInt8.toNat_and, Nat.testBit_and, Bool.and_eq_true]

/-- A type is held exactly if the two have one of the 64 flags in common. -/
theorem type_is (t st : Int) : Adc.UserType.is t st = true ↔ ∃ i, i < 64 ∧ Has t i ∧ Has st i := by
  unfold Adc.UserType.is
  rw [bne_iff_ne]
  constructor
  · intro h
    refine Classical.byContradiction fun hn => h ?_
    apply BitVec.eq_of_getLsbD_eq
    intro i hi
    rw [BitVec.getLsbD_and]
    cases ha : (BitVec.ofInt 64 t).getLsbD i with
    | false => simp
    | true =>
      cases hb : (BitVec.ofInt 64 st).getLsbD i with
      | false => simp
      | true => exact absurd ⟨i, hi, (testBit_ofInt t hi).mp ha, (testBit_ofInt st hi).mp hb⟩ hn
  · rintro ⟨i, hi, ha, hb⟩ h0
    have := congrArg (·.getLsbD i) h0
    simp [(testBit_ofInt t hi).mpr ha, (testBit_ofInt st hi).mpr hb] at this

/-- Each flag of an NMDC user is a bit of its own; `FlagTLS` is set as soon as one direction is. -/
theorem flags (f : Byte) :
    (Nmdc.UserFlag.isSet f Nmdc.UserFlag.statusNormal = true ↔ Has f.toNat 0) ∧
    (Nmdc.UserFlag.isSet f Nmdc.UserFlag.statusAway = true ↔ Has f.toNat 1) ∧
    (Nmdc.UserFlag.isSet f Nmdc.UserFlag.statusServer = true ↔ Has f.toNat 2) ∧
    (Nmdc.UserFlag.isSet f Nmdc.UserFlag.statusFireball = true ↔ Has f.toNat 3) ∧
    (Nmdc.UserFlag.isSet f Nmdc.UserFlag.tlsDownload = true ↔ Has f.toNat 4) ∧
    (Nmdc.UserFlag.isSet f Nmdc.UserFlag.tlsUpload = true ↔ Has f.toNat 5) ∧
    (Nmdc.UserFlag.isSet f Nmdc.UserFlag.ipv4 = true ↔ Has f.toNat 6) ∧
    (Nmdc.UserFlag.isSet f Nmdc.UserFlag.ipv6 = true ↔ Has f.toNat 7) ∧
    (Nmdc.UserFlag.isSet f Nmdc.UserFlag.tls = true ↔ Has f.toNat 4 ∨ Has f.toNat 5) ∧
    Nmdc.UserFlag.isSet f 0 = false := by
  revert f
  unfold Has
  apply forall_byte
  decide +kernel

/-- A single flag is held exactly if it is in the set. -/
theorem type_bit (t : Int) {k : Nat} (hk : k < 64) : Adc.UserType.is t (2 ^ k) = true ↔ Has t k := by
  rw [type_is]
  have hpow : ∀ i, Has (2 ^ k) i ↔ i = k := by
    intro i
    unfold Has
    rcases Nat.lt_trichotomy i k with h | rfl | h
    · have : (2 : Int) ^ k = 2 ^ i * (2 * 2 ^ (k - i - 1)) := by
        rw [← Int.pow_succ', ← Int.pow_add]; congr 1; omega
      rw [this, Int.mul_ediv_cancel_left _ (Int.ne_of_gt (Int.pow_pos (by decide)))]
      omega
    · rw [Int.ediv_self (Int.ne_of_gt (Int.pow_pos (by decide)))]
      simp
    · rw [Int.ediv_eq_zero_of_lt (Int.le_of_lt (Int.pow_pos (by decide)))]
      · simp; omega
      · exact Int.pow_lt_pow_of_lt (by decide) h
  constructor
  · rintro ⟨i, _, ha, hb⟩
    rwa [(hpow i).mp hb] at ha
  · intro h
    exact ⟨k, hk, h, (hpow k).mpr rfl⟩

/-- Each type of an ADC user is a bit of its own. -/
theorem types (t : Int) :
    (Adc.UserType.is t Adc.UserType.bot = true ↔ Has t 0) ∧
    (Adc.UserType.is t Adc.UserType.registered = true ↔ Has t 1) ∧
    (Adc.UserType.is t Adc.UserType.operator = true ↔ Has t 2) ∧
    (Adc.UserType.is t Adc.UserType.superUser = true ↔ Has t 3) ∧
    (Adc.UserType.is t Adc.UserType.hubOwner = true ↔ Has t 4) ∧
    (Adc.UserType.is t Adc.UserType.hub = true ↔ Has t 5) ∧
    (Adc.UserType.is t Adc.UserType.hidden = true ↔ Has t 6) ∧
    Adc.UserType.is t Adc.UserType.none = false := by
  refine ⟨type_bit t (k := 0) (by decide), type_bit t (k := 1) (by decide), type_bit t (k := 2) (by decide), type_bit t (k := 3) (by decide),
    type_bit t (k := 4) (by decide), type_bit t (k := 5) (by decide), type_bit t (k := 6) (by decide), ?_⟩
  simp [Adc.UserType.is, Adc.UserType.none]

/-- The text of an ADC error tells its code and its message. -/
theorem errorText_injective {a b : Adc.Status} (h : a.errorText = b.errorText) : a.code = b.code ∧ a.msg = b.msg := by
  unfold Adc.Status.errorText at h
  simp only [List.append_assoc] at h
  have h := List.append_cancel_left h
  have hc : ∀ n : Int, c!":" ∉ itoa n := by
    intro n hn
    rcases itoa_bytes hn with hd | hd
    · unfold Verif.Spec.IsDigit at hd; revert hd; decide
    · revert hd; decide
  obtain ⟨h1, h2⟩ := split_mark (hc _) (hc _) h
  refine ⟨?_, by simpa using h2⟩
  exact itoa_inj h1

/-- The text of a field tells its tag and its value. -/
theorem field_injective {a b : Adc.Field} (h : a.string = b.string) : a = b := by
  obtain ⟨t, ht, v⟩ := a
  obtain ⟨t', ht', v'⟩ := b
  simp only [Adc.Field.string] at h
  obtain ⟨rfl, rfl⟩ := List.append_inj h (ht.trans ht'.symm)
  rfl

/-- What is sent of a chat message is its text form, escaped, exactly if there is no `<` and no `>` in its name. -/
theorem chat_sent {m : Nmdc.ChatMessage} {w : Bytes} (h : m.marshal none = .ok w) :
    Nmdc.escapeString m.string = .ok w ↔ c!"<" ∉ m.name ∧ c!">" ∉ m.name := by
  obtain ⟨name, text⟩ := m
  unfold Nmdc.ChatMessage.marshal at h
  unfold Nmdc.ChatMessage.string
  simp only at h ⊢
  by_cases hn : name = []
  · subst hn
    simp only [ne_eq, not_true_eq_false, if_false, Nmdc.Str.marshal, Nmdc.Codec.run, Res.pure_eq, Res.bind_eq_ok, Res.ok.injEq] at h
    obtain ⟨_, rfl, a, ⟨_, rfl, ha⟩, rfl⟩ := h
    simpa using ha
  · rw [if_neg hn]
    rw [if_pos hn] at h
    obtain ⟨n, hn', h⟩ := Res.bind_eq_ok.mp h
    obtain ⟨pre, hp, h⟩ := Res.bind_eq_ok.mp h
    cases hp
    obtain ⟨t, ht, h⟩ := Res.bind_eq_ok.mp h
    cases h
    unfold Nmdc.Name.marshal at hn'
    split at hn'
    · cases hn'
    · replace hn' : Nmdc.escapeName name = .ok n := hn'
      unfold Nmdc.escapeName at hn'
      split at hn'
      · cases hn'
      · rename_i hinv
        cases hn'
        replace ht : Nmdc.escapeString text = .ok t := ht
        unfold Nmdc.escapeString at ht ⊢
        split at ht
        · cases ht
        · rename_i h0
          cases ht
          have hz : ¬ (b!"<" ++ name ++ b!"> " ++ text).any (· = 0) = true := by
            simp only [List.any_append, Bool.or_eq_true, not_or]
            refine ⟨⟨⟨by decide, ?_⟩, by decide⟩, h0⟩
            intro hx
            apply hinv
            simp only [List.any_eq_true] at hx ⊢
            obtain ⟨b, hb, h⟩ := hx
            exact ⟨b, hb, by simp at h; subst h; decide⟩
          rw [if_neg hz]
          have hesc : Nmdc.escWith Nmdc.escapeCharString (b!"<" ++ name ++ b!"> " ++ text) =
              b!"<" ++ Nmdc.escWith Nmdc.escapeCharString name ++ b!"> " ++ Nmdc.escWith Nmdc.escapeCharString text := by
            unfold Nmdc.escWith
            rw [List.flatMap_append, List.flatMap_append, List.flatMap_append]
            rfl
          rw [hesc]
          constructor
          · intro he
            have he := Res.ok.inj he
            have he := List.append_cancel_right (List.append_cancel_right he)
            have he := List.append_cancel_left he
            have hl := (esc_length name).2
            rw [he] at hl
            exact ⟨fun hb => absurd (hl ⟨_, hb, .inl rfl⟩) (by omega), fun hb => absurd (hl ⟨_, hb, .inr rfl⟩) (by omega)⟩
          · rintro ⟨ha, hb⟩
            rw [esc_same (fun b hm => ⟨fun e => ha (e ▸ hm), fun e => hb (e ▸ hm)⟩)]

/-- Chat messages with different senders or texts are shown differently, if no name has a `>` in it and a text without a name does not begin with `<`. -/
theorem chat_shown_differs {a b : Nmdc.ChatMessage} (ha : c!">" ∉ a.name) (hb : c!">" ∉ b.name)
    (ha' : a.name = [] → a.text.head? ≠ some c!"<") (hb' : b.name = [] → b.text.head? ≠ some c!"<") (h : a.string = b.string) : a = b := by
  obtain ⟨n, t⟩ := a
  obtain ⟨n', t'⟩ := b
  unfold Nmdc.ChatMessage.string at h
  simp only at ha hb ha' hb' h
  by_cases hn : n = [] <;> by_cases hn' : n' = []
  · simp [hn, hn'] at h ⊢; exact h
  · rw [if_pos hn, if_neg hn'] at h
    exact absurd (by rw [h]; simp) (ha' hn)
  · rw [if_neg hn, if_pos hn'] at h
    exact absurd (by rw [← h]; simp) (hb' hn')
  · rw [if_neg hn, if_neg hn'] at h
    obtain ⟨rfl, h2⟩ := split_mark ha hb (u := b!" " ++ t) (v := b!" " ++ t') (by simpa using h)
    rw [List.append_cancel_left h2]

section Received
open Verif.Spec Verif.Spec.NmdcReads Verif.Spec.NmdcRelay

variable [HtmlEntities]

/-- A line of chat without escapes is shown as it was received exactly if it does not begin with `<`, or if a name that is not empty
ends there before `>` and one blank. -/
theorem chat_received {d : Bytes} {m : Nmdc.ChatMessage} (hc : Clear d) (h : Nmdc.ChatMessage.unmarshal none {} d = .ok m) :
    m.string = d ↔ ¬ Begins b!"<" d ∨ ∃ n t, n ≠ [] ∧ d = b!"<" ++ n ++ b!"> " ++ t ∧ c!"\r" ∉ n ∧ c!"\n" ∉ n ∧
      ∀ u v, n = u ++ b!">" ++ v → ¬ White (v ++ b!"> " ++ t) := by
  have hr := NmdcReads.chat_reads.mp h
  rcases hr with ⟨hb, hn, ht⟩ | ⟨r, n, t, rfl, hs, hn, ht⟩
  · obtain ⟨rfl, -⟩ := NmdcRelay.text_clear ht hc
    simp [Nmdc.ChatMessage.string, hn, hb]
  · have hcr := NmdcRelay.clear_right hc
    obtain ⟨cn, ct⟩ := NmdcRelay.split_clear hs hcr
    obtain ⟨rfl, -⟩ := NmdcRelay.name_clear hn cn
    obtain ⟨rfl, -⟩ := NmdcRelay.text_clear ht ct
    have hbeg : Begins b!"<" (b!"<" ++ r) := ⟨r, rfl⟩
    simp only [hbeg, not_true_eq_false, false_or]
    obtain ⟨n, t⟩ := m
    simp only at hs
    unfold Nmdc.ChatMessage.string
    simp only
    constructor
    · intro he
      by_cases hm : n = []
      · rw [if_pos hm] at he
        have hl : t.length ≤ r.length := by
          cases hs with
          | empty => simp
          | space => simp; omega
          | line => simp; omega
          | final => simp
        have := congrArg List.length he
        simp at this
        omega
      · rw [if_neg hm] at he
        have he : n ++ b!"> " ++ t = r := by simpa using he
        have hl := congrArg List.length he
        cases hs with
        | empty => exact absurd rfl hm
        | @space _ _ w hw h1 h2 h3 =>
          have : b!" " = utf8 w := by
            have h4 : n ++ b!">" ++ b!" " ++ t = n ++ b!">" ++ utf8 w ++ t := by
              rw [← he]; simp
            exact List.append_cancel_left (List.append_cancel_right h4)
          refine ⟨n, t, hm, by rw [← this]; simp, h1, h2, ?_⟩
          intro u v hu
          have := h3 u v hu
          rwa [show v ++ b!">" ++ utf8 w ++ t = v ++ b!"> " ++ t by rw [← ‹b!" " = utf8 w›]; simp] at this
        | line => simp at hl
        | @final u v _ hd => subst hd; simp at hl; omega
    · rintro ⟨n', t', hn0, he, h1, h2, h3⟩
      have hr : r = n' ++ b!">" ++ utf8 32 ++ t' := by
        have : utf8 32 = b!" " := by decide
        rw [this]
        simpa using he
      have hs' : ChatSplit r n' t' := by
        rw [hr]
        refine .space (by decide) h1 h2 ?_
        intro u v hu
        have := h3 u v hu
        rwa [show v ++ b!"> " ++ t' = v ++ b!">" ++ utf8 32 ++ t' by rw [show utf8 32 = b!" " by decide]; simp] at this
      obtain ⟨rfl, rfl⟩ := NmdcExact.split_unique (by rw [hr]; simp) hs hs'
      rw [if_neg hn0, he]

end Received

/-! ## Examples -/

/-- Finding: a user with encryption in one direction only has the flag `FlagTLS`. -/
example : Nmdc.UserFlag.isSet (Nmdc.UserFlag.tlsUpload ||| Nmdc.UserFlag.statusNormal) Nmdc.UserFlag.tls = true := by decide +kernel

/-- The normal state is not a state in which other flags are. -/
example : Nmdc.UserFlag.isSet 0x31 Nmdc.UserFlag.statusAway = false := by decide +kernel

/-- An operator who is registered, asked for both, and for others. -/
example : Adc.UserType.is 6 (Adc.UserType.operator + Adc.UserType.bot) = true ∧ Adc.UserType.is 6 Adc.UserType.hub = false := by decide +kernel

/-- The type `-1`, which a peer may send, is every type. -/
example : Adc.UserType.is (-1) Adc.UserType.hubOwner = true := by decide +kernel

example : Adc.Status.errorText ⟨2, 20, b!"no: way"⟩ = b!"code 20: no: way" := by decide +kernel
example : Adc.Field.string ⟨b!"NI", rfl, b!"joe"⟩ = b!"NIjoe" := by decide +kernel

/-- The hypotheses of `chat_sent` are met, and by a name with `>` as well. -/
example : Nmdc.ChatMessage.marshal none ⟨b!"joe", b!"a | b"⟩ = .ok b!"<joe> a &#124; b" ∧
    Nmdc.ChatMessage.marshal none ⟨b!"j>e", b!"hi"⟩ = .ok b!"<j&gt;e> hi" ∧
    Nmdc.ChatMessage.string ⟨b!"j>e", b!"hi"⟩ = b!"<j>e> hi" := by decide +kernel

section
local instance : HtmlEntities := basicEntities

/-- The hypotheses of `chat_received` are met. -/
example : Nmdc.ChatMessage.unmarshal none {} b!"<joe> hi" = .ok ⟨b!"joe", b!"hi"⟩ ∧
    Nmdc.ChatMessage.string ⟨b!"joe", b!"hi"⟩ = b!"<joe> hi" := by decide +kernel

/-- Finding: a line with no name in the brackets is shown as a message of the user named in its text. -/
example : Nmdc.ChatMessage.unmarshal none {} b!"<> <op> hi" = .ok ⟨[], b!"<op> hi"⟩ ∧
    Nmdc.ChatMessage.string ⟨[], b!"<op> hi"⟩ = Nmdc.ChatMessage.string ⟨b!"op", b!"hi"⟩ := by decide +kernel

/-- Other white space behind the name is shown as a blank. -/
example : Nmdc.ChatMessage.unmarshal none {} b!"<joe>\thi" = .ok ⟨b!"joe", b!"hi"⟩ := by decide +kernel
end

end Verif.Props.Shown
