import Verif.Go.DeflateSpec
import Verif.Go.HuffmanWords
import Verif.Lineproto.ZlibBroken

/-!
# What the decompressor has read when it is at the end

For each thing it reads: if it comes to the end from there, the bits begin with that thing.
-/

namespace Verif.Go.Deflate

open Verif.Go.Inflate Verif.Lineproto

/-! ### Codes -/

theorem mkBook_from {lens : List Nat} {b : Book} (h : mkBook lens = some b) :
    b = [] ∨ (b = bookFrom lens (maxLen lens) 0 0 ∧ lastCode lens (maxLen lens) 0 0 ≤ 2 ^ (0 + maxLen lens)) := by
  unfold mkBook at h
  split at h
  · cases h; exact .inl rfl
  · split at h
    · rename_i hl
      cases h
      refine .inr ⟨rfl, ?_⟩
      rcases hl with hl | ⟨h1, h2⟩
      · simp [hl]
      · rw [h1, h2]; decide
    · cases h

theorem mkBook_sym {lens : List Nat} {b : Book} (h : mkBook lens = some b) {v : Nat} (hv : HasWord b v) : v < lens.length := by
  obtain ⟨k, hk⟩ := hv
  rcases mkBook_from h with h | ⟨h1, h2⟩
  · subst h; simp at hk
  · subst h1
    have := (bookFrom_sym _ _ _ _ _ h2 hk).2
    exact (List.getElem?_eq_some_iff.mp this).1

theorem pair_cases {α : Type} {R : α → α → Prop} {l : List α} (h : l.Pairwise R) : ∀ a ∈ l, ∀ b ∈ l, a = b ∨ R a b ∨ R b a := by
  induction h with
  | nil => intro a ha; simp at ha
  | cons hx _ ih =>
    intro a ha b hb
    rcases List.mem_cons.mp ha with ha1 | ha1
    · rcases List.mem_cons.mp hb with hb1 | hb1
      · exact .inl (ha1.trans hb1.symm)
      · exact .inr (.inl (ha1 ▸ hx _ hb1))
    · rcases List.mem_cons.mp hb with hb1 | hb1
      · exact .inr (.inr (hb1 ▸ hx _ ha1))
      · exact ih a ha1 b hb1

/-- A symbol has one word. -/
theorem mkBook_uniq {lens : List Nat} {b : Book} (h : mkBook lens = some b) {k k' v : Nat} (h1 : (k, v) ∈ b) (h2 : (k', v) ∈ b) : k = k' := by
  rcases mkBook_from h with h | ⟨e, hl⟩
  · subst h; simp at h1
  · subst e
    have s1 := (bookFrom_sym _ _ _ _ _ hl h1).2
    have s2 := (bookFrom_sym _ _ _ _ _ hl h2).2
    dsimp only at s1 s2
    rw [s1] at s2
    have s3 : k.log2 = k'.log2 := Option.some.inj s2
    rcases pair_cases (bookFrom_before _ _ _ _ hl) _ h1 _ h2 with h | h | h
    · exact congrArg Prod.fst h
    · unfold Before at h; dsimp only at h; omega
    · unfold Before at h; dsimp only at h; omega

theorem key_eq {lens : List Nat} {b : Book} (h : mkBook lens = some b) {k v : Nat} (h1 : (k, v) ∈ b) : Book.key b v = k := by
  unfold Book.key
  cases hf : b.find? (fun e => e.2 == v) with
  | none => exact absurd (List.find?_eq_none.mp hf _ h1) (by simp)
  | some e =>
    have h2 := List.mem_of_find?_eq_some hf
    have h3 := List.find?_some hf
    have h4 : e.2 = v := by simpa using h3
    obtain ⟨k', v'⟩ := e
    dsimp only at h4
    subst h4
    exact mkBook_uniq h h2 h1

/-! ### Numbers and words -/

variable {F : St} (hF : F.mode = .done)

include hF in
theorem stuck_fail {s : St} {c : Nat} {bs : List Bool} (h : (s.to (.fail c)).bits bs = F) : False := by
  rw [bits_fail (c := c) rfl] at h
  subst h
  cases hF

theorem short_num : ∀ (bs : List Bool) (s : St) (l w v : Nat) (k : Num), bs.length < l → s.mode = .num l w v k →
    ∃ l' w' v', (s.bits bs).mode = .num l' w' v' k := by
  intro bs
  induction bs with
  | nil => intro s l w v k _ h; exact ⟨_, _, _, h⟩
  | cons b bs ih =>
    intro s l w v k hl h
    rw [bits_cons]
    rw [List.length_cons] at hl
    refine ih _ (l - 1) (2 * w) (v + if b then w else 0) k (by omega) ?_
    unfold St.bit
    rw [h]
    dsimp only
    rw [if_neg (by omega)]
    rfl

include hF in
theorem parse_num {s : St} {n : Nat} {k : Num} {bs : List Bool} (h0 : n ≠ 0) (h : (s.to (.num n 1 0 k)).bits bs = F) :
    ∃ x bs', x < 2 ^ n ∧ bs = numBits n x ++ bs' ∧ ((adv s n).gotNum x k).bits bs' = F := by
  by_cases hl : bs.length < n
  · obtain ⟨a, b, c, h1⟩ := short_num bs (s.to (.num n 1 0 k)) n 1 0 k hl rfl
    rw [h, hF] at h1
    cases h1
  · obtain ⟨x, h1, h2⟩ := bits_numBits (bs.take n)
    have h3 : (bs.take n).length = n := by rw [List.length_take]; omega
    rw [h3] at h1 h2
    have h4 : bs = numBits n x ++ bs.drop n := by rw [← h2, List.take_append_drop]
    refine ⟨x, bs.drop n, h1, h4, ?_⟩
    rw [h4, bits_append, bits_ask _ _ _ _ h0 h1] at h
    exact h

include hF in
theorem parse_walk {b : Book} {k : Sym} : ∀ (bs : List Bool) (s : St) (key : Nat), (s.to (.word b key k)).bits bs = F →
    ∃ n K v bs', (K, v) ∈ b ∧ K / 2 ^ (n + 1) = key ∧ bs = lastBits (n + 1) K ++ bs' ∧ ((adv s (n + 1)).gotSym b v k).bits bs' = F := by
  intro bs
  induction bs with
  | nil => intro s key h; rw [bits_nil] at h; subst h; cases hF
  | cons c bs ih =>
    intro s key h
    rw [bits_cons] at h
    generalize hk : (2 * key + if c then 1 else 0) = key' at *
    have hc : (key' % 2 == 1) = c := by cases c <;> simp at hk ⊢ <;> omega
    have hd : key' / 2 = key := by cases c <;> simp at hk <;> omega
    have hb : (s.to (.word b key k)).bit c =
        match b.find key' with
        | some v => (adv s 1).gotSym b v k
        | none => if b.stuck key' then (adv s 1).to (.fail corrupt) else (adv s 1).to (.word b key' k) := by
      show (match b.find (2 * key + if c then 1 else 0) with
        | some v => ((adv s 1).to (.word b key k)).gotSym b v k
        | none => _) = _
      rw [hk]
      cases b.find key' with
      | some v => exact gotSym_to _ _ _ _ _
      | none => rfl
    rw [hb] at h
    cases hv : b.find key' with
    | some v =>
      rw [hv] at h
      refine ⟨0, key', v, bs, lookup_mem b hv, by omega, ?_, h⟩
      simp [lastBits, hc]
    | none =>
      rw [hv] at h
      dsimp only at h
      split at h
      · exact (stuck_fail hF h).elim
      · obtain ⟨n, K, v, bs', h1, h2, h3, h4⟩ := ih _ _ h
        refine ⟨n + 1, K, v, bs', h1, ?_, ?_, ?_⟩
        · rw [Nat.pow_succ, ← Nat.div_div_eq_div_mul, h2, hd]
        · rw [lastBits, h2, hc, h3]; rfl
        · rw [adv_adv, Nat.add_comm 1] at h4; exact h4

include hF in
theorem parse_word {lens : List Nat} {b : Book} (hm : mkBook lens = some b) {k : Sym} {bs : List Bool} {s : St}
    (h : (s.toWord b k).bits bs = F) :
    ∃ v bs', HasWord b v ∧ bs = wordBits (Book.key b v) ++ bs' ∧
      ((adv s (wordBits (Book.key b v)).length).gotSym b v k).bits bs' = F := by
  unfold St.toWord at h
  split at h
  · exact (stuck_fail hF h).elim
  · obtain ⟨n, K, v, bs', h1, h2, h3, h4⟩ := parse_walk hF _ _ _ h
    have hl : K.log2 = n + 1 := by
      have h5 := Nat.div_add_mod K (2 ^ (n + 1))
      have h6 := Nat.mod_lt K (Nat.two_pow_pos (n + 1))
      rw [h2] at h5
      rw [Nat.log2_eq_iff (by omega), Nat.pow_succ 2 (n + 1)]
      omega
    have hk : wordBits (Book.key b v) = lastBits (n + 1) K := by rw [key_eq hm h1, wordBits, hl]
    have hlen : (lastBits (n + 1) K).length = n + 1 := by
      generalize n + 1 = m
      induction m with
      | zero => rfl
      | succ m ih => simp [lastBits, ih]
    exact ⟨v, bs', ⟨K, h1⟩, by rw [hk]; exact h3, by rw [hk, hlen]; exact h4⟩

/-! ### Literals and references -/

include hF in
theorem parse_dist {ld : List Nat} {lit dist : Book} (hm : mkBook ld = some dist) {len : Nat} {bs : List Bool} {s : St}
    (h : (s.toDist lit dist len).bits bs = F) :
    ∃ w y bs', w ≤ 29 ∧ HasWord dist w ∧ y < 2 ^ (distBase w).2 ∧ (distBase w).1 + y ≤ s.hist.length ∧
      bs = (wordBits (Book.key dist w) ++ numBits (distBase w).2 y) ++ bs' ∧
      (((adv s (wordBits (Book.key dist w) ++ numBits (distBase w).2 y).length).withHist
        (copyBack ((distBase w).1 + y) len s.hist)).toLit lit dist).bits bs' = F := by
  obtain ⟨w, b1, h1, rfl, h2⟩ := parse_word hF hm h
  simp only [St.gotSym] at h2
  split at h2
  · exact (stuck_fail hF h2).elim
  · rename_i hw
    have ref_ok : ∀ (s1 : St) (d : Nat) (b2 : List Bool), (s1.ref lit dist len d).bits b2 = F →
        d ≤ s1.hist.length ∧ ((s1.withHist (copyBack d len s1.hist)).toLit lit dist).bits b2 = F := by
      intro s1 d b2 h
      unfold St.ref at h
      split at h
      · exact ⟨by assumption, h⟩
      · exact (stuck_fail hF h).elim
    split at h2
    · rename_i h0
      obtain ⟨h3, h4⟩ := ref_ok _ _ _ h2
      refine ⟨w, 0, b1, by omega, h1, by rw [h0]; decide, h3, ?_, ?_⟩
      · rw [h0]; simp [numBits]
      · rw [h0, numBits, List.append_nil, Nat.add_zero]; exact h4
    · rename_i h0
      obtain ⟨y, b2, hy, rfl, h3⟩ := parse_num hF h0 h2
      simp only [St.gotNum] at h3
      obtain ⟨h4, h5⟩ := ref_ok _ _ _ h3
      refine ⟨w, y, b2, by omega, h1, hy, h4, by simp, ?_⟩
      rw [List.length_append, numBits_length, ← adv_adv]
      exact h5

include hF in
/-- The tokens of a block, up to its end. -/
theorem parse_toks {ll ld : List Nat} {lit dist : Book} (hl : mkBook ll = some lit) (hd : mkBook ld = some dist) :
    ∀ (n : Nat) (bs : List Bool) (s : St), bs.length ≤ n → (s.toLit lit dist).bits bs = F →
    ∃ ts h' bs', ToksSay lit dist s.hist ts h' ∧ HasWord lit 256 ∧ bs = ts ++ wordBits (Book.key lit 256) ++ bs' ∧
      (((adv s (ts ++ wordBits (Book.key lit 256)).length).withHist h').endBlock).bits bs' = F := by
  have pos : ∀ v, HasWord lit v → 0 < (wordBits (Book.key lit v)).length := by
    intro v hv
    have := walk_key (mkBook_good hl) hv
    cases hw : wordBits (Book.key lit v) with
    | nil => rw [hw] at this; simp [walk] at this
    | cons _ _ => simp
  intro n
  induction n with
  | zero =>
    intro bs s hn h
    have : bs = [] := List.length_eq_zero_iff.mp (by omega)
    subst this
    obtain ⟨v, b1, h1, h2, -⟩ := parse_word hF hl h
    have := pos v h1
    have h3 := congrArg List.length h2
    rw [List.length_append] at h3
    simp only [List.length_nil] at h3
    omega
  | succ n ih =>
    intro bs s hn h
    obtain ⟨v, b1, h1, rfl, h2⟩ := parse_word hF hl h
    have hpos := pos v h1
    rw [List.length_append] at hn
    simp only [St.gotSym] at h2
    split at h2
    · rename_i hv
      obtain ⟨ts, h', bs', i1, i2, i3, i4⟩ := ih b1 _ (by omega) h2
      have hc : (UInt8.ofNat v).toNat = v := by rw [UInt8.toNat_ofNat']; omega
      refine ⟨wordBits (Book.key lit v) ++ ts, h', bs', .cons ?_ i1, i2, ?_, ?_⟩
      · have := TokSays.lit (lit := lit) (dist := dist) (h := s.hist) (UInt8.ofNat v) (by rw [hc]; exact h1)
        rw [hc] at this
        exact this
      · rw [i3]; simp
      · rw [List.append_assoc, List.length_append, ← adv_adv]; exact i4
    · split at h2
      · rename_i h256
        subst h256
        exact ⟨[], s.hist, b1, .nil _, h1, by simp, h2⟩
      · split at h2
        · exact (stuck_fail hF h2).elim
        · have go : ∃ x b2, x < 2 ^ (lenBase v).2 ∧ b1 = numBits (lenBase v).2 x ++ b2 ∧
              ((adv s (wordBits (Book.key lit v) ++ numBits (lenBase v).2 x).length).toDist lit dist ((lenBase v).1 + x)).bits b2 = F := by
            split at h2
            · rename_i h0
              refine ⟨0, b1, by rw [h0]; decide, by rw [h0]; rfl, ?_⟩
              rw [h0]
              simpa [numBits] using h2
            · rename_i h0
              obtain ⟨x, b2, hx, rfl, h3⟩ := parse_num hF h0 h2
              refine ⟨x, b2, hx, rfl, ?_⟩
              rw [List.length_append, numBits_length, ← adv_adv]
              exact h3
          obtain ⟨x, b2, hx, rfl, h3⟩ := go
          obtain ⟨w, y, b3, j1, j2, j3, j4, rfl, j6⟩ := parse_dist hF hd h3
          obtain ⟨ts, h', bs', i1, i2, i3, i4⟩ := ih b3 _ (by simp only [List.length_append] at hn; omega) j6
          refine ⟨_, h', bs', .cons (.ref v x w y (by omega) (by omega) h1 hx j1 j2 j3 j4) i1, i2, ?_, ?_⟩
          · rw [i3]; simp
          · have e : (wordBits (Book.key lit v) ++ (numBits (lenBase v).2 x ++ (wordBits (Book.key dist w) ++ numBits (distBase w).2 y)) ++ ts ++
                wordBits (Book.key lit 256)).length = (wordBits (Book.key lit v) ++ numBits (lenBase v).2 x).length +
                ((wordBits (Book.key dist w) ++ numBits (distBase w).2 y).length + (ts ++ wordBits (Book.key lit 256)).length) := by
              simp only [List.length_append]; omega
            rw [e, ← adv_adv, ← adv_adv]
            exact i4

/-! ### Stored data -/

include hF in
theorem parse_copy : ∀ (n : Nat) (s : St) (bs : List Bool), (s.to (.num 8 1 0 (.copy (n + 1)))).bits bs = F →
    ∃ p bs', p.length = n + 1 ∧ bs = dataBits p ++ bs' ∧
      (((adv s (dataBits p).length).withHist (p.reverse ++ s.hist)).endBlock).bits bs' = F := by
  intro n
  induction n with
  | zero =>
    intro s bs h
    obtain ⟨x, b1, hx, rfl, h1⟩ := parse_num hF (by decide) h
    simp only [St.gotNum] at h1
    rw [if_pos (by omega)] at h1
    have hc : (UInt8.ofNat x).toNat = x := by rw [UInt8.toNat_ofNat']; omega
    refine ⟨[UInt8.ofNat x], b1, rfl, ?_, h1⟩
    simp [dataBits, bitsOf_eq, hc]
  | succ n ih =>
    intro s bs h
    obtain ⟨x, b1, hx, rfl, h1⟩ := parse_num hF (by decide) h
    simp only [St.gotNum] at h1
    rw [if_neg (by omega), show n + 1 + 1 - 1 = n + 1 by omega] at h1
    obtain ⟨p, b2, h2, rfl, h3⟩ := ih _ _ h1
    have hc : (UInt8.ofNat x).toNat = x := by rw [UInt8.toNat_ofNat']; omega
    refine ⟨UInt8.ofNat x :: p, b2, by simp [h2], ?_, ?_⟩
    · simp [dataBits_cons, bitsOf_eq, hc]
    · rw [dataBits_cons, List.length_append, ← adv_adv, List.reverse_cons, List.append_assoc]
      exact h3

include hF in
theorem parse_stored {s : St} {bs : List Bool} (h : s.toStored.bits bs = F) :
    ∃ pad p bs', pad.length = (8 - s.pos % 8) % 8 ∧ p.length ≤ 65535 ∧
      bs = pad ++ (numBits 16 p.length ++ numBits 16 (65535 - p.length) ++ dataBits p) ++ bs' ∧
      (((adv s (pad ++ (numBits 16 p.length ++ numBits 16 (65535 - p.length) ++ dataBits p)).length).withHist
        (p.reverse ++ s.hist)).endBlock).bits bs' = F := by
  have hpad : ∃ pad b1, pad.length = (8 - s.pos % 8) % 8 ∧ bs = pad ++ b1 ∧ ((adv s pad.length).to (.num 16 1 0 .len)).bits b1 = F := by
    unfold St.toStored at h
    split at h
    · rename_i h0
      exact ⟨[], bs, h0.symm, rfl, h⟩
    · rename_i h0
      obtain ⟨x, b1, hx, rfl, h1⟩ := parse_num hF h0 h
      exact ⟨numBits s.rest x, b1, numBits_length _ _, rfl, by rw [numBits_length]; exact h1⟩
  obtain ⟨pad, b1, hp, rfl, h1⟩ := hpad
  obtain ⟨l, b2, hl, rfl, h2⟩ := parse_num hF (by decide) h1
  simp only [St.gotNum] at h2
  obtain ⟨m, b3, hm, rfl, h3⟩ := parse_num hF (by decide) h2
  simp only [St.gotNum] at h3
  split at h3
  · exact (stuck_fail hF h3).elim
  · rename_i hlm
    have hm' : m = 65535 - l := by omega
    subst hm'
    split at h3
    · rename_i h0
      subst h0
      refine ⟨pad, [], b3, hp, by simp, by simp [dataBits], ?_⟩
      rw [List.length_append, ← adv_adv]
      rw [adv_adv] at h3
      exact h3
    · rename_i h0
      obtain ⟨n, rfl⟩ := Nat.exists_eq_succ_of_ne_zero h0
      obtain ⟨p, b4, e1, rfl, e2⟩ := parse_copy hF n _ _ h3
      refine ⟨pad, p, b4, hp, by omega, by rw [e1]; simp, ?_⟩
      rw [List.length_append, List.length_append, List.length_append, numBits_length, numBits_length, ← adv_adv, ← adv_adv, ← adv_adv]
      exact e2

/-! ### Codes of a block -/

include hF in
theorem parse_clens {nlit ndist : Nat} : ∀ (n : Nat) (got : List Nat) (s : St) (bs : List Bool),
    (s.to (.num 3 1 0 (.clen nlit ndist (n + 1) got))).bits bs = F →
    ∃ cl bs', cl.length = n + 1 ∧ (∀ x ∈ cl, x < 8) ∧ bs = cl.flatMap (numBits 3) ++ bs' ∧
      ((adv s (cl.flatMap (numBits 3)).length).toBook nlit ndist (got ++ cl)).bits bs' = F := by
  intro n
  induction n with
  | zero =>
    intro got s bs h
    obtain ⟨x, b1, hx, rfl, h1⟩ := parse_num hF (by decide) h
    simp only [St.gotNum] at h1
    rw [if_neg (by omega)] at h1
    exact ⟨[x], b1, rfl, by simpa using hx, by simp, by simpa [numBits_length] using h1⟩
  | succ n ih =>
    intro got s bs h
    obtain ⟨x, b1, hx, rfl, h1⟩ := parse_num hF (by decide) h
    simp only [St.gotNum] at h1
    rw [if_pos (by omega), show n + 1 + 1 - 1 = n + 1 by omega] at h1
    obtain ⟨cl, b2, h2, h3, rfl, h4⟩ := ih _ _ _ h1
    refine ⟨x :: cl, b2, by simp [h2], ?_, by simp, ?_⟩
    · intro y hy
      rcases List.mem_cons.mp hy with rfl | hy
      · exact hx
      · exact h3 y hy
    · rw [List.flatMap_cons, List.length_append, numBits_length, ← adv_adv]
      simpa using h4

include hF in
theorem parse_ops {lens : List Nat} {b : Book} (hb : mkBook lens = some b) (h19 : lens.length = 19) {nlit ndist : Nat} :
    ∀ (n : Nat) (got : List Nat) (s : St) (bs : List Bool), nlit + ndist ≤ got.length + n → got.length ≤ nlit + ndist →
    (s.toLens nlit ndist b got).bits bs = F →
    ∃ os bs' lit dist, opsOk b got os ∧ (os.foldl LenOp.eval got).length = nlit + ndist ∧
      mkBook ((os.foldl LenOp.eval got).take nlit) = some lit ∧ mkBook ((os.foldl LenOp.eval got).drop nlit) = some dist ∧
      bs = os.flatMap (LenOp.bits b) ++ bs' ∧ ((adv s (os.flatMap (LenOp.bits b)).length).toLit lit dist).bits bs' = F := by
  have fin : ∀ (got : List Nat) (s : St) (bs : List Bool), got.length = nlit + ndist → (s.toLens nlit ndist b got).bits bs = F →
    ∃ os bs' lit dist, opsOk b got os ∧ (os.foldl LenOp.eval got).length = nlit + ndist ∧
      mkBook ((os.foldl LenOp.eval got).take nlit) = some lit ∧ mkBook ((os.foldl LenOp.eval got).drop nlit) = some dist ∧
      bs = os.flatMap (LenOp.bits b) ++ bs' ∧ ((adv s (os.flatMap (LenOp.bits b)).length).toLit lit dist).bits bs' = F := by
    intro got s bs hl h
    unfold St.toLens at h
    rw [if_neg (by omega)] at h
    cases e1 : mkBook (got.take nlit) with
    | none => rw [e1] at h; exact (stuck_fail hF h).elim
    | some lit =>
      cases e2 : mkBook (got.drop nlit) with
      | none => rw [e1, e2] at h; exact (stuck_fail hF h).elim
      | some dist =>
        rw [e1, e2] at h
        exact ⟨[], bs, lit, dist, trivial, hl, e1, e2, rfl, h⟩
  intro n
  induction n with
  | zero => intro got s bs h1 h2 h; exact fin got s bs (by omega) h
  | succ n ih =>
    intro got s bs h1 h2 h
    by_cases hl : got.length = nlit + ndist
    · exact fin got s bs hl h
    · unfold St.toLens at h
      rw [if_pos (by omega)] at h
      obtain ⟨v, b1, w1, rfl, w2⟩ := parse_word hF hb h
      have h18 := mkBook_sym hb w1
      have step : ∀ (o : LenOp) (b2 : List Bool), o.Ok got → o.sym = v → (o.eval got).length ≤ nlit + ndist →
          wordBits (Book.key b v) ++ b1 = o.bits b ++ b2 → ((adv s (o.bits b).length).toLens nlit ndist b (o.eval got)).bits b2 = F →
          ∃ os bs' lit dist, opsOk b got os ∧ (os.foldl LenOp.eval got).length = nlit + ndist ∧
            mkBook ((os.foldl LenOp.eval got).take nlit) = some lit ∧ mkBook ((os.foldl LenOp.eval got).drop nlit) = some dist ∧
            wordBits (Book.key b v) ++ b1 = os.flatMap (LenOp.bits b) ++ bs' ∧
            ((adv s (os.flatMap (LenOp.bits b)).length).toLit lit dist).bits bs' = F := by
        intro o b2 ho hs hle he hr
        have := o.eval_length_lt got ho
        obtain ⟨os, b3, lit, dist, k1, k2, k3, k4, rfl, k6⟩ := ih _ _ _ (by omega) hle hr
        refine ⟨o :: os, b3, lit, dist, ⟨ho, by rw [hs]; exact w1, k1⟩, k2, k3, k4, ?_, ?_⟩
        · rw [he]; simp
        · rw [List.flatMap_cons, List.length_append, ← adv_adv]; exact k6
      simp only [St.gotSym] at w2
      split at w2
      · rename_i hv
        exact step (.len v) b1 hv rfl (by simp [LenOp.eval]; omega) rfl w2
      · have rep : ∀ (m base x0 : Nat) (o : Nat → LenOp), m ≠ 0 →
            (((adv s (wordBits (Book.key b v)).length).to (.num m 1 0 (.rep nlit ndist b got x0 base))).bits b1 = F) →
            (∀ t, t < 2 ^ m → (o (base + t)).Ok got ∧ (o (base + t)).sym = v ∧ (o (base + t)).eval got = got ++ List.replicate (base + t) x0 ∧
              (o (base + t)).bits b = wordBits (Book.key b v) ++ numBits m t) →
            ∃ os bs' lit dist, opsOk b got os ∧ (os.foldl LenOp.eval got).length = nlit + ndist ∧
              mkBook ((os.foldl LenOp.eval got).take nlit) = some lit ∧ mkBook ((os.foldl LenOp.eval got).drop nlit) = some dist ∧
              wordBits (Book.key b v) ++ b1 = os.flatMap (LenOp.bits b) ++ bs' ∧
              ((adv s (os.flatMap (LenOp.bits b)).length).toLit lit dist).bits bs' = F := by
          intro m base x0 o hm hr ho
          obtain ⟨t, b2, ht, rfl, h3⟩ := parse_num hF hm hr
          obtain ⟨o1, o2, o3, o4⟩ := ho t ht
          simp only [St.gotNum] at h3
          split at h3
          · exact (stuck_fail hF h3).elim
          · refine step (o (base + t)) b2 o1 o2 ?_ ?_ ?_
            · rw [o3]; simp; omega
            · rw [o4]; simp
            · rw [o3, o4, List.length_append, numBits_length, ← adv_adv]; exact h3
        split at w2
        · rename_i h16
          subst h16
          split at w2
          · exact (stuck_fail hF w2).elim
          · rename_i hne
            refine rep 2 3 _ .again (by decide) w2 ?_
            intro t ht
            refine ⟨⟨by omega, by omega, ?_⟩, rfl, rfl, ?_⟩
            · intro h0; simp [h0] at hne
            · simp [LenOp.bits]
        · split at w2
          · rename_i h17
            subst h17
            refine rep 3 3 _ .zeros (by decide) w2 ?_
            intro t ht
            exact ⟨⟨by omega, by omega⟩, rfl, rfl, by simp [LenOp.bits]⟩
          · have h18' : v = 18 := by omega
            subst h18'
            refine rep 7 11 _ .manyZeros (by decide) w2 ?_
            intro t ht
            exact ⟨⟨by omega, by omega⟩, rfl, rfl, by simp [LenOp.bits]⟩

include hF in
theorem parse_header {s : St} {bs : List Bool} (h : (s.to (.num 14 1 0 .counts)).bits bs = F) :
    ∃ hd lit dist bs', Header.Ok hd lit dist ∧ bs = hd.bits ++ bs' ∧ ((adv s hd.bits.length).toLit lit dist).bits bs' = F := by
  obtain ⟨v, b1, hv, rfl, h1⟩ := parse_num hF (by decide) h
  simp only [St.gotNum] at h1
  split at h1
  · exact (stuck_fail hF h1).elim
  · split at h1
    · exact (stuck_fail hF h1).elim
    · rename_i g1 g2
      obtain ⟨cl, b2, c1, c2, rfl, c3⟩ := parse_clens hF (v / 1024 + 3) _ _ _ h1
      rw [List.nil_append] at c3
      unfold St.toBook at c3
      cases hb : mkBook (clens cl) with
      | none => rw [hb] at c3; exact (stuck_fail hF c3).elim
      | some b =>
        rw [hb] at c3
        obtain ⟨os, b3, lit, dist, o1, o2, o3, o4, rfl, o6⟩ := parse_ops hF hb (by simp [clens]) (v % 32 + 257 + (v / 32 % 32 + 1)) [] _ _
          (by simp) (by simp) c3
        have hbo : bookOf (clens cl) = b := by unfold bookOf; rw [hb]; rfl
        have hbits : (Header.mk (v % 32 + 257) (v / 32 % 32 + 1) cl os).bits =
            numBits 14 v ++ cl.flatMap (numBits 3) ++ os.flatMap (LenOp.bits b) := by
          unfold Header.bits
          dsimp only
          rw [hbo, show v % 32 + 257 - 257 + 32 * (v / 32 % 32 + 1 - 1) + 1024 * (cl.length - 4) = v by omega]
        have hok : Header.Ok ⟨v % 32 + 257, v / 32 % 32 + 1, cl, os⟩ lit dist := by
          unfold Header.Ok Header.lens
          dsimp only
          exact ⟨by omega, by omega, by omega, by omega, by omega, by omega, c2, ⟨b, hb, o1⟩, o2, o3, o4⟩
        refine ⟨⟨v % 32 + 257, v / 32 % 32 + 1, cl, os⟩, lit, dist, b3, ?_, ?_, ?_⟩
        · exact hok
        · rw [hbits]; simp
        · rw [hbits, List.length_append, List.length_append, numBits_length, ← adv_adv, ← adv_adv]
          exact o6

/-! ### Blocks -/

theorem hdr_cases {x : Nat} (h : x < 2 ^ 3) : x = 0 ∨ x = 1 ∨ x = 2 ∨ x = 3 ∨ x = 4 ∨ x = 5 ∨ x = 6 ∨ x = 7 := by omega

include hF in
theorem parse_block {s : St} {bs : List Bool} (h : (s.to (.num 3 1 0 .hdr)).bits bs = F) :
    ∃ f a h' bs', BlockSays f s.pos s.hist a h' ∧ 3 ≤ a.length ∧ bs = a ++ bs' ∧
      ((((adv s a.length).withFinal f).withHist h').endBlock).bits bs' = F := by
  obtain ⟨x, b1, hx, rfl, h1⟩ := parse_num hF (by decide) h
  have stored : ∀ f, numBits 3 x = [f, false, false] → (((adv s 3).withFinal f).toStored).bits b1 = F →
      ∃ f a h' bs', BlockSays f s.pos s.hist a h' ∧ 3 ≤ a.length ∧ numBits 3 x ++ b1 = a ++ bs' ∧
        ((((adv s a.length).withFinal f).withHist h').endBlock).bits bs' = F := by
    intro f hf h
    obtain ⟨pad, p, b2, e1, e2, rfl, e4⟩ := parse_stored hF h
    refine ⟨f, _, _, b2, .stored pad p e1 e2, by simp, by rw [hf]; simp, ?_⟩
    rw [List.length_append, ← adv_adv s]
    exact e4
  have fixed : ∀ f, numBits 3 x = [f, true, false] → (((adv s 3).withFinal f).toLit fixedLit fixedDist).bits b1 = F →
      ∃ f a h' bs', BlockSays f s.pos s.hist a h' ∧ 3 ≤ a.length ∧ numBits 3 x ++ b1 = a ++ bs' ∧
        ((((adv s a.length).withFinal f).withHist h').endBlock).bits bs' = F := by
    intro f hf h
    obtain ⟨ts, h', b2, e1, e2, rfl, e4⟩ := parse_toks hF fixedLit_mk fixedDist_mk _ _ _ (Nat.le_refl _) h
    refine ⟨f, _, _, b2, .fixed ts h' e1, by simp, by rw [hf]; simp, ?_⟩
    rw [List.length_append, ← adv_adv s]
    exact e4
  have coded : ∀ f, numBits 3 x = [f, false, true] → (((adv s 3).withFinal f).to (.num 14 1 0 .counts)).bits b1 = F →
      ∃ f a h' bs', BlockSays f s.pos s.hist a h' ∧ 3 ≤ a.length ∧ numBits 3 x ++ b1 = a ++ bs' ∧
        ((((adv s a.length).withFinal f).withHist h').endBlock).bits bs' = F := by
    intro f hf h
    obtain ⟨hd, lit, dist, b2, d1, rfl, d3⟩ := parse_header hF h
    have d1' := d1
    unfold Header.Ok at d1'
    obtain ⟨_, _, _, _, _, _, _, _, _, h9, h10⟩ := d1'
    obtain ⟨ts, h', b3, e1, e2, rfl, e4⟩ := parse_toks hF h9 h10 _ _ _ (Nat.le_refl _) d3
    refine ⟨f, _, _, b3, .coded hd lit dist ts h' d1 e2 e1, by simp, by rw [hf]; simp, ?_⟩
    rw [List.length_append, ← adv_adv s]
    have e5 : (hd.bits ++ (ts ++ wordBits (Book.key lit 256))).length = hd.bits.length + (ts ++ wordBits (Book.key lit 256)).length :=
      List.length_append
    rw [e5, ← adv_adv]
    exact e4
  rcases hdr_cases hx with rfl | rfl | rfl | rfl | rfl | rfl | rfl | rfl
  · exact stored false rfl h1
  · exact stored true rfl h1
  · exact fixed false rfl h1
  · exact fixed true rfl h1
  · exact coded false rfl h1
  · exact coded true rfl h1
  · exact (stuck_fail hF h1).elim
  · exact (stuck_fail hF h1).elim

include hF in
theorem parse_stream : ∀ (n : Nat) (bs : List Bool) (s : St), bs.length ≤ n → (s.to (.num 3 1 0 .hdr)).bits bs = F →
    ∃ a h' bs', StreamSays s.pos s.hist a h' ∧ bs = a ++ bs' ∧ (((adv s a.length).withFinal true).withHist h').toSum.bits bs' = F := by
  intro n
  induction n with
  | zero =>
    intro bs s hn h
    obtain ⟨f, a, h', bs', _, h2, h3, _⟩ := parse_block hF h
    have := congrArg List.length h3
    rw [List.length_append] at this
    omega
  | succ n ih =>
    intro bs s hn h
    obtain ⟨f, a, h', b1, h1, h2, rfl, h4⟩ := parse_block hF h
    rw [List.length_append] at hn
    cases f with
    | true => exact ⟨a, h', b1, .last h1, rfl, h4⟩
    | false =>
      obtain ⟨c, h'', b2, i1, rfl, i3⟩ := ih b1 (((adv s a.length).withFinal false).withHist h') (by omega) h4
      refine ⟨a ++ c, h'', b2, .more h1 i1, by simp, ?_⟩
      rw [List.length_append, ← adv_adv]
      exact i3

include hF in
theorem parse_sum {s : St} {bs : List Bool} (h : s.toSum.bits bs = F) :
    ∃ pad bs', pad.length = (8 - s.pos % 8) % 8 ∧ bs = pad ++ dataBits (sumBytes (adler32 s.hist.reverse)) ++ bs' := by
  have hpad : ∃ pad b1, pad.length = (8 - s.pos % 8) % 8 ∧ bs = pad ++ b1 ∧ ((adv s pad.length).to (.num 8 1 0 (.sum 4 0))).bits b1 = F := by
    unfold St.toSum at h
    split at h
    · rename_i h0
      exact ⟨[], bs, h0.symm, rfl, h⟩
    · rename_i h0
      obtain ⟨x, b1, hx, rfl, h1⟩ := parse_num hF h0 h
      exact ⟨numBits s.rest x, b1, numBits_length _ _, rfl, by rw [numBits_length]; exact h1⟩
  obtain ⟨pad, b1, hp, rfl, h1⟩ := hpad
  obtain ⟨x1, b2, g1, rfl, h2⟩ := parse_num hF (by decide) h1
  simp only [St.gotNum] at h2
  rw [if_pos (by omega)] at h2
  obtain ⟨x2, b3, g2, rfl, h3⟩ := parse_num hF (by decide) h2
  simp only [St.gotNum] at h3
  rw [if_pos (by omega)] at h3
  obtain ⟨x3, b4, g3, rfl, h4⟩ := parse_num hF (by decide) h3
  simp only [St.gotNum] at h4
  rw [if_pos (by omega)] at h4
  obtain ⟨x4, b5, g4, rfl, h5⟩ := parse_num hF (by decide) h4
  simp only [St.gotNum] at h5
  rw [if_neg (by omega)] at h5
  split at h5
  · rename_i he
    have he' : (((0 * 256 + x1) * 256 + x2) * 256 + x3) * 256 + x4 = adler32 s.hist.reverse := he
    refine ⟨pad, b5, hp, ?_⟩
    rw [← he']
    have e : sumBytes ((((0 * 256 + x1) * 256 + x2) * 256 + x3) * 256 + x4) = [UInt8.ofNat x1, UInt8.ofNat x2, UInt8.ofNat x3, UInt8.ofNat x4] := by
      unfold sumBytes
      rw [show ((((0 * 256 + x1) * 256 + x2) * 256 + x3) * 256 + x4) / 16777216 = x1 by omega,
        show ((((0 * 256 + x1) * 256 + x2) * 256 + x3) * 256 + x4) / 65536 % 256 = x2 by omega,
        show ((((0 * 256 + x1) * 256 + x2) * 256 + x3) * 256 + x4) / 256 % 256 = x3 by omega,
        show ((((0 * 256 + x1) * 256 + x2) * 256 + x3) * 256 + x4) % 256 = x4 by omega]
    have hb : ∀ x, x < 2 ^ 8 → bitsOf (UInt8.ofNat x) = numBits 8 x := by
      intro x hx
      rw [bitsOf_eq, UInt8.toNat_ofNat']
      congr 1
      omega
    rw [e]
    simp [dataBits, hb _ g1, hb _ g2, hb _ g3, hb _ g4]
  · exact (stuck_fail hF h5).elim

end Verif.Go.Deflate
