import Verif.Keyprint.Keyprint
import Verif.Props.Identifiers

/-!
# Key prints (C56, C65)
-/

namespace Verif.Props.KeyPrints

open Verif.Go Verif.Keyprint

variable (sha : Bytes → Bytes)

/-- What a key print is: the name of the hash, a slash and the base32 text of the digest. -/
def printOf (cert : Bytes) : Bytes := b!"SHA256/" ++ Spec.Base32.text (sha cert)

theorem fromBytes_eq (b : Bytes) : fromBytes sha b = printOf sha b := by
  rw [fromBytes, printOf, Identifiers.encode_is_base32]

theorem printLoop_eq (certs kps : List Bytes) : printLoop sha kps certs = kps ++ certs.map (printOf sha) := by
  induction certs generalizing kps with
  | nil => simp [printLoop]
  | cons c cs ih => rw [printLoop, ih, fromBytes_eq]; simp

theorem verifyLoop_iff (kp : Bytes) (kps : List Bytes) : verifyLoop kp kps = true ↔ kp ∈ kps := by
  induction kps with
  | nil => simp [verifyLoop]
  | cons k ks ih =>
    rw [verifyLoop]
    split
    · rename_i h; simp [h]
    · rename_i h; rw [ih, List.mem_cons]; simp [Ne.symm h]

/-- **C56.** Verification succeeds exactly if some peer certificate has the expected key print; all key prints are returned, in
order, and the error carries both sides. -/
theorem verify_exact (peer : List Bytes) (kp : Bytes) :
    ((verifyKeyPrint sha peer kp).2 = none ↔ ∃ cert ∈ peer, kp = printOf sha cert) ∧
    (verifyKeyPrint sha peer kp).1 = peer.map (printOf sha) ∧
    (∀ e, (verifyKeyPrint sha peer kp).2 = some e → e = ⟨kp, peer.map (printOf sha)⟩) := by
  have hk : getKeyPrints sha peer = peer.map (printOf sha) := by simp [getKeyPrints, printLoop_eq]
  unfold verifyKeyPrint
  rw [hk]
  by_cases h : verifyLoop kp (peer.map (printOf sha)) = true
  · simp only [h, if_true]
    rw [verifyLoop_iff, List.mem_map] at h
    obtain ⟨c, hc, rfl⟩ := h
    exact ⟨by simp only [true_iff]; exact ⟨c, hc, rfl⟩, by simp⟩
  · simp only [h, if_false, Bool.false_eq_true]
    rw [verifyLoop_iff, List.mem_map] at h
    refine ⟨by simp only [reduceCtorEq, false_iff]; rintro ⟨c, hc, rfl⟩; exact h ⟨c, hc, rfl⟩, by simp⟩

/-- **C56.** `FromCertificate` gives the key prints of all certificates, in order. -/
theorem certificate_prints (certs : List Bytes) : fromCertificate sha certs = certs.map (printOf sha) := by
  unfold fromCertificate
  split
  · rename_i h; rw [List.length_eq_zero_iff] at h; simp [h]
  · simp [printLoop_eq]

/-- **C56.** Equal key prints mean equal digests. -/
theorem print_injective (a b : Bytes) : fromBytes sha a = fromBytes sha b ↔ sha a = sha b := by
  constructor
  · intro h; exact Base32.encode_injective (List.append_cancel_left h)
  · intro h; simp [fromBytes, h]

/-- **C56.** With a 32-byte digest a key print is the prefix and 52 characters. -/
theorem print_length (b : Bytes) (h : (sha b).length = 32) :
    ∃ t, fromBytes sha b = b!"SHA256/" ++ t ∧ t.length = 52 ∧ ∀ c ∈ t, c ∈ Spec.Base32.alphabet := by
  refine ⟨_, rfl, ?_, ?_⟩
  · rw [Base32.encode_length, h]
  · intro c hc
    obtain ⟨d, hd, rfl⟩ := Base32.encode_chars _ c hc
    have := Identifiers.encChar_alphabet ⟨d, hd⟩
    simp only at this
    rw [this]
    have hl : d < Spec.Base32.alphabet.length := hd
    rw [List.getD_eq_getElem?_getD, List.getElem?_eq_getElem hl]
    exact List.getElem_mem hl

/-- The blocks of a PEM file. -/
inductive Blocks (P : Pem) : Bytes → List (Bytes × Bytes) → Prop where
  | done (d) : P.decode d = none → Blocks P d []
  | block (d t b rest bs) : P.decode d = some (t, b, rest) → Blocks P rest bs → Blocks P d ((t, b) :: bs)

theorem blocks_exist (P : Pem) (d : Bytes) : ∃ bs, Blocks P d bs := by
  generalize hn : d.length = n
  induction n using Nat.strongRecOn generalizing d with
  | _ n ih =>
    cases h : P.decode d with
    | none => exact ⟨[], .done d h⟩
    | some x =>
      obtain ⟨t, b, rest⟩ := x
      obtain ⟨bs, hbs⟩ := ih _ (hn ▸ P.shorter _ _ _ _ h) rest rfl
      exact ⟨_, .block d t b rest bs h hbs⟩

theorem fileLoop_eq {P : Pem} {d : Bytes} {bs : List (Bytes × Bytes)} (h : Blocks P d bs) (kps : List Bytes) :
    fileLoop sha P kps d = kps ++ (bs.filter (fun x => x.1 = b!"CERTIFICATE")).map (fun x => printOf sha x.2) := by
  induction h generalizing kps with
  | done d h =>
    unfold fileLoop
    split
    · simp
    · rename_i hs; rw [h] at hs; simp at hs
  | block d t b rest bs h _ ih =>
    unfold fileLoop
    split
    · rename_i hs; rw [h] at hs; simp at hs
    · rename_i t' b' r' hs
      rw [h] at hs
      simp only [Option.some.injEq, Prod.mk.injEq] at hs
      obtain ⟨rfl, rfl, rfl⟩ := hs
      split
      · rename_i hc; rw [ih]; simp [hc]
      · rename_i hc
        have hc : t = b!"CERTIFICATE" := by simpa using hc
        rw [ih, fromBytes_eq]; simp [hc]

/-- **C65.** `FromFile` gives the key prints of the CERTIFICATE blocks of the file, in order, and fails if there are none or the
file cannot be read. -/
theorem file_prints (P : Pem) (data : Bytes) (bs : List (Bytes × Bytes)) (h : Blocks P data bs) :
    (∀ kps, fromFile sha P (data, none) = .ok kps ↔
      kps = (bs.filter (fun x => x.1 = b!"CERTIFICATE")).map (fun x => printOf sha x.2) ∧ ∃ x ∈ bs, x.1 = b!"CERTIFICATE") ∧
    (∀ e, fromFile sha P (data, some e) = .error e) := by
  refine ⟨?_, fun e => rfl⟩
  intro kps
  unfold fromFile
  simp only
  rw [fileLoop_eq sha h, List.nil_append, List.length_map]
  split
  · rename_i hn
    rw [List.length_eq_zero_iff, List.filter_eq_nil_iff] at hn
    simp only [reduceCtorEq, false_iff]
    rintro ⟨_, x, hx, hc⟩
    exact hn x hx (by simpa using hc)
  · rename_i hn
    rw [List.length_eq_zero_iff, List.filter_eq_nil_iff] at hn
    simp only [Except.ok.injEq]
    constructor
    · intro hk
      refine ⟨hk.symm, ?_⟩
      apply Classical.byContradiction
      intro hno
      exact hn fun x hx hc => hno ⟨x, hx, by simpa using hc⟩
    · rintro ⟨hk, _⟩; exact hk.symm

/-- Every peer certificate verifies against its own key print; with an injective digest no other certificate does. -/
theorem verify_own (peer : List Bytes) (cert : Bytes) (hinj : ∀ c ∈ peer, sha c = sha cert → c = cert) :
    (verifyKeyPrint sha peer (fromBytes sha cert)).2 = none ↔ cert ∈ peer := by
  rw [(verify_exact sha peer _).1]
  constructor
  · rintro ⟨c, hc, h⟩
    rw [← fromBytes_eq, print_injective] at h
    exact hinj c hc h.symm ▸ hc
  · intro h; exact ⟨cert, h, fromBytes_eq sha cert⟩

/-- A "digest" of 32 bytes, for examples. -/
def pad32 (b : Bytes) : Bytes := (b ++ List.replicate 32 0).take 32

example : (verifyKeyPrint pad32 [b!"one", b!"two"] (fromBytes pad32 b!"two")).2 = none ∧
    (verifyKeyPrint pad32 [b!"one", b!"two"] (fromBytes pad32 b!"six")).2 ≠ none ∧ (pad32 b!"two").length = 32 := by decide +kernel

/-- A PEM decoder of one-byte blocks: 'C' stands for a certificate. -/
def toyPem : Pem where
  decode d := match d with
    | [] => none
    | c :: r => some (if c = c!"C" then b!"CERTIFICATE" else b!"KEY", [c], r)
  shorter := by
    intro d t b rest h
    cases d with
    | nil => simp at h
    | cons c r => simp at h; simp [h.2.2]

example : fromFile pad32 toyPem (b!"KCKC", none) = .ok [printOf pad32 b!"C", printOf pad32 b!"C"] := by
  have h : Blocks toyPem b!"KCKC" [(b!"KEY", b!"K"), (b!"CERTIFICATE", b!"C"), (b!"KEY", b!"K"), (b!"CERTIFICATE", b!"C")] :=
    .block _ _ _ b!"CKC" _ rfl (.block _ _ _ b!"KC" _ rfl (.block _ _ _ b!"C" _ rfl (.block _ _ _ [] _ rfl (.done _ rfl))))
  exact ((file_prints pad32 toyPem _ _ h).1 _).mpr ⟨rfl, (b!"CERTIFICATE", b!"C"), by simp, rfl⟩

end Verif.Props.KeyPrints
