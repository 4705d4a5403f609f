import Verif.Go.PemLemmas
import Verif.Keyprint.PemFile
import Verif.Props.KeyPrints

/-!
# C114: key prints of PEM files

`Spec.Pem.File` says what a file with blocks is: text, blocks, broken blocks and blocks that are cut off, in any order,
with lines of any length, ended by LF or CRLF.
-/

namespace Verif.Props.PemFiles

open Verif.Go Verif.Keyprint Verif.Spec.Pem Verif.Props.KeyPrints

/-- The decoder finds exactly the blocks of the file, in order. -/
theorem file_blocks {d : Bytes} {bs : List (Bytes × Bytes)} (h : File d bs) : Blocks stdPem d bs := by
  induction hn : d.length using Nat.strongRecOn generalizing d bs with
  | _ n ih =>
    subst hn
    cases h with
    | done hx => exact .done _ (Go.Pem.decode_other hx)
    | @block x typ b text eol rest bs hx hx' hb he hr =>
      have hd := Go.Pem.decode_block hx hx' hb he
      exact .block _ _ _ rest _ hd (ih _ (Go.Pem.decode_shorter _ _ _ _ hd) hr rfl)
    | @broken x text eol rest bs hx hx' hb he hr =>
      obtain ⟨y, hy, hy', hl, hd⟩ := Go.Pem.decode_broken (rest := rest) hx hx' hb he
      have hb' := ih _ hl (Go.Pem.file_behind hy (.inr hy') hr) rfl
      generalize x ++ text ++ eol ++ rest = d at hd
      cases hb' with
      | done _ h => exact .done _ (hd.trans h)
      | block _ t b r bs h hbs => exact .block _ t b r bs (hd.trans h) hbs
    | @cut x text rest bs hx hx' hb he hr =>
      obtain ⟨y, hy, hy', hl, hd⟩ := Go.Pem.decode_cut hx hx' hb he
      have hb' := ih _ hl (Go.Pem.file_behind hy hy' hr) rfl
      generalize x ++ text ++ rest = d at hd
      cases hb' with
      | done _ h => exact .done _ (hd.trans h)
      | block _ t b r bs h hbs => exact .block _ t b r bs (hd.trans h) hbs

/-- **C114.** The key prints of a file are those of its certificates, in order; blocks of other types, broken blocks, blocks that are cut
off and other text do not count.
A file without a certificate is refused. -/
theorem certificate_file (sha : Bytes → Bytes) {d : Bytes} {bs : List (Bytes × Bytes)} (h : File d bs) :
    fromPemFile sha d = if ∃ x ∈ bs, x.1 = b!"CERTIFICATE" then
        .ok ((bs.filter (fun x => x.1 = b!"CERTIFICATE")).map (fun x => printOf sha x.2))
      else .error (.other 99) := by
  have hp := (file_prints sha stdPem d bs (file_blocks h)).1
  unfold fromPemFile
  split
  · rename_i hc
    exact (hp _).mpr ⟨rfl, hc⟩
  · rename_i hc
    cases hf : fromFile sha stdPem (d, none) with
    | ok kps => exact absurd ((hp kps).mp hf).2 hc
    | error e =>
      unfold fromFile at hf
      simp only at hf
      split at hf
      · cases hf; rfl
      · cases hf

/-- What is in a file is one list of blocks. -/
theorem file_unique {d : Bytes} {a b : List (Bytes × Bytes)} (ha : File d a) (hb : File d b) : a = b := by
  have h := file_blocks ha
  have h' := file_blocks hb
  clear ha hb
  induction h generalizing b with
  | done d h =>
    cases h' with
    | done => rfl
    | block _ t b r bs h2 => rw [h] at h2; cases h2
  | block d t b r bs h _ ih =>
    cases h' with
    | done _ h2 => rw [h] at h2; cases h2
    | block _ t' b' r' bs' h2 hb =>
      rw [h] at h2
      cases h2
      rw [ih hb]

/-- Every list of blocks is that of a file: each in one line. -/
theorem file_exists (bs : List (Bytes × Bytes)) (h : ∀ x ∈ bs, c!"\n" ∉ x.1 ∧ c!":" ∉ x.1) : ∃ d, File d bs := by
  induction bs with
  | nil => exact ⟨[], .done (Go.Pem.other_plain (by simp))⟩
  | cons x bs ih =>
    obtain ⟨d, hd⟩ := ih (fun y hy => h y (by simp [hy]))
    obtain ⟨typ, b⟩ := x
    refine ⟨_, .block (x := []) (eol := b!"\n") (Go.Pem.other_plain (by simp)) (.inl rfl) ⟨(h (typ, b) (by simp)).1, (h (typ, b) (by simp)).2, b!"\n", by simp [eols],
      [], Spec.Base64.text b ++ b!"\n", by simp, .inl rfl, ⟨.inr (by simp), ?_, ?_⟩, rfl⟩ (.inl (by simp [eols])) hd⟩
    · intro c hc
      rcases List.mem_append.mp hc with hc | hc
      · have := Go.Base64.text_chars b c hc
        rcases this with h | h
        · exact .inl h
        · exact .inr (by simp [h])
      · right; simp at hc; simp [hc]
    · rw [List.filter_append, show List.filter (fun c => decide (c ∉ b!"\r\n \t")) b!"\n" = [] by decide, List.append_nil, List.filter_eq_self]
      intro c hc
      rcases Go.Base64.text_chars b c hc with h | h
      · simpa using (Go.Pem.alphabet_plain c h).2.2
      · rw [h]; decide

/-! ## Examples -/

deriving instance DecidableEq for Except

/-- A file with a remark, a certificate in two lines, a broken certificate, a key and another certificate without the end of its last line. -/
def sample : Bytes :=
  b!"remark: first\n" ++
  b!"-----BEGIN CERTIFICATE-----\r\nZmly\r\nc3Q=\r\n-----END CERTIFICATE-----\r\n" ++
  b!"-----BEGIN CERTIFICATE-----\nZm!y\n-----END CERTIFICATE-----\n" ++
  b!"-----BEGIN KEY-----\nAAAA\n-----END KEY-----\n\n" ++
  b!"-----BEGIN CERTIFICATE-----\nc2Vjb25k\n-----END CERTIFICATE-----"

example : fromPemFile pad32 sample = .ok [printOf pad32 b!"first", printOf pad32 b!"second"] := by decide +kernel

/-- The hypothesis of `certificate_file` is met by a file with a block and a broken block. -/
example : File (b!"-----BEGIN A-----\nZm!y\n-----END A-----\n-----BEGIN CERTIFICATE-----\nc2Vj\nb25k\n-----END CERTIFICATE-----")
    [(b!"CERTIFICATE", b!"second")] := by
  refine .broken (x := []) (text := b!"-----BEGIN A-----\nZm!y\n-----END A-----") (eol := b!"\n")
    (rest := b!"-----BEGIN CERTIFICATE-----\nc2Vj\nb25k\n-----END CERTIFICATE-----") (Go.Pem.other_plain (by simp)) (.inl rfl)
    ⟨b!"A", b!"\n", [], b!"Zm!y\n", b!"A-----", by decide, by decide, by simp, rfl, by decide, by decide, ⟨by decide, by simp⟩,
      fun _ => ⟨c!"!", by decide, by decide, by decide⟩, rfl⟩ (by decide) ?_
  exact .block (x := []) (typ := b!"CERTIFICATE") (b := b!"second") (eol := []) (rest := []) (Go.Pem.other_plain (by simp)) (.inl rfl)
    ⟨by decide, by decide, b!"\n", by decide, [], b!"c2Vj\nb25k\n", by simp, .inl rfl, ⟨.inr rfl, by decide, by decide +kernel⟩, rfl⟩ (.inr ⟨rfl, rfl⟩)
    (.done (Go.Pem.other_plain (by simp)))

/-- A line that begins a block and does not end as it should, a block that is cut off, a certificate with header lines, and one whose last line
does not fit. -/
example : fromPemFile pad32 (b!"-----BEGIN\n-----BEGIN X\n-----BEGIN CERTIFICATE-----\nAAAA\n" ++
    b!"-----BEGIN CERTIFICATE-----\nProc-Type: 4\nA: b\r\n\nc2Vj\nb25k\n-----END CERTIFICATE-----\n" ++
    b!"-----BEGIN CERTIFICATE-----\nAAAA\n-----END CERTIFICATES-----\n") = .ok [printOf pad32 b!"second"] := by decide +kernel

/-- Such a file meets the hypothesis of `certificate_file`, too. -/
example : File (b!"-----BEGIN CERTIFICATE-----\nAAAA\n-----BEGIN A-----\nB: c\n\nc2Vj\n-----END A-----\n-----BEGIN B-----\nAAAA\n-----END C-----\n")
    [(b!"A", b!"sec")] := by
  refine .cut (x := []) (text := b!"-----BEGIN CERTIFICATE-----\nAAAA\n") (Go.Pem.other_plain (by simp)) (.inl rfl)
    (.inr ⟨b!"CERTIFICATE", b!"\n", [], b!"AAAA\n", by decide, by decide, by simp, rfl, by decide, by decide, rfl⟩) ⟨_, rfl⟩ ?_
  refine .block (x := []) (typ := b!"A") (b := b!"sec") (eol := b!"\n") (Go.Pem.other_plain (by simp)) (.inl rfl)
    ⟨by decide, by decide, b!"\n", by decide, [b!"B: c\n"], b!"\nc2Vj\n", ?_, .inr (by decide), ⟨.inr rfl, by decide, by decide +kernel⟩, rfl⟩
    (.inl (by decide)) ?_
  · intro h hh
    simp at hh
    subst hh
    exact ⟨b!"B: c", rfl, by decide, by decide⟩
  · exact .broken (x := []) (text := b!"-----BEGIN B-----\nAAAA\n-----END C-----") (eol := b!"\n") (rest := []) (Go.Pem.other_plain (by simp))
      (.inl rfl) ⟨b!"B", b!"\n", [], b!"AAAA\n", b!"C-----", by decide, by decide, by simp, rfl, by decide, by decide, ⟨by decide, by simp⟩,
        by simp, rfl⟩ (by decide) (.done (Go.Pem.other_plain (by simp)))

/-- Finding: if the end of the line is missing between two certificates, as when two files are joined, neither is found. The others are, without an error. -/
theorem joined_lost :
    fromPemFile pad32 (b!"-----BEGIN CERTIFICATE-----\nZmlyc3Q=\n-----END CERTIFICATE-----" ++
      b!"-----BEGIN CERTIFICATE-----\nc2Vjb25k\n-----END CERTIFICATE-----\n") = .error (.other 99) ∧
    fromPemFile pad32 (b!"-----BEGIN CERTIFICATE-----\nZmlyc3Q=\n-----END CERTIFICATE-----" ++
      b!"-----BEGIN CERTIFICATE-----\nc2Vjb25k\n-----END CERTIFICATE-----\n" ++
      b!"-----BEGIN CERTIFICATE-----\ndGhpcmQ=\n-----END CERTIFICATE-----\n") = .ok [printOf pad32 b!"third"] := by decide +kernel

/-- A file with a key only. -/
example : fromPemFile pad32 b!"-----BEGIN KEY-----\nAAAA\n-----END KEY-----\n" = .error (.other 99) := by decide +kernel

end Verif.Props.PemFiles
