import Verif.Lineproto.ReaderLemmas

/-!
# Runs of reader operations, and lemmas about `EnableZlib`, `Read` and `Binary`
-/

namespace Verif.Lineproto

variable {Z : Type} (I : Inflater Z)

/-- `r.ReadLine()` returns `res` and leaves the reader in state `r'`. -/
def Reader.ReadsLine (r : Reader Z) (res : Bytes × Option Err) (r' : Reader Z) : Prop :=
  ∃ k, ∀ fuel ≥ k, r.readLine I fuel = .val (res, r')

/-- `r.EnableZlib()` returns nil; the new zlib reader will follow schedule `sched`. -/
def Reader.EnablesZlib (sched : List (Nat × Bool)) (r r' : Reader Z) : Prop :=
  ∃ k, ∀ fuel ≥ k, r.enableZlib I fuel sched = .val (none, r')

/-- Successive `Read` calls on the reader of a binary section with `left` bytes left; each entry is
the size of the caller's buffer and the result. -/
inductive Reader.BinReads : Reader Z → Nat → List (Nat × Bytes × Option Err) → Nat → Reader Z → Prop
  | nil (r : Reader Z) (left : Nat) : BinReads r left [] left r
  | cons (r r1 r2 : Reader Z) (left left1 left2 n : Nat) (res : Bytes × Option Err)
      (more : List (Nat × Bytes × Option Err))
      (h : ∃ k, ∀ fuel ≥ k, r.binRead I fuel n left = .val (res, left1, r1))
      (t : BinReads r1 left1 more left2 r2) : BinReads r left ((n, res) :: more) left2 r2

/-- `Close` of a binary section with `left` bytes left returns `e`. -/
def Reader.BinCloses (r : Reader Z) (left : Nat) (e : Option Err) (r' : Reader Z) : Prop :=
  ∃ k, ∀ fuel ≥ k, r.binClose I fuel left = .val (e, r')

/-- What a user of the reader does and sees. -/
inductive Obs where
  /-- `ReadLine` returned this. -/
  | line (res : Bytes × Option Err)
  /-- `EnableZlib` returned nil. -/
  | zlib (sched : List (Nat × Bool))
  /-- `Binary(sz)`, then these reads, then `Close` returned nil. -/
  | binary (sz : Nat) (reads : List (Nat × Bytes × Option Err))

/-- A run: a sequence of operations with their results. -/
inductive Reader.Runs : Reader Z → List Obs → Reader Z → Prop
  | nil (r : Reader Z) : Runs r [] r
  | line (r r1 r2 : Reader Z) (res : Bytes × Option Err) (os : List Obs)
      (h : r.ReadsLine I res r1) (t : Runs r1 os r2) : Runs r (.line res :: os) r2
  | zlib (r r1 r2 : Reader Z) (sched : List (Nat × Bool)) (os : List Obs)
      (h : r.EnablesZlib I sched r1) (t : Runs r1 os r2) : Runs r (.zlib sched :: os) r2
  | binary (r r1 r2 r3 : Reader Z) (sz left left1 : Nat) (reads : List (Nat × Bytes × Option Err))
      (os : List Obs) (hb : r.binary sz = .ok left) (hr : Reader.BinReads I r left reads left1 r1)
      (hc : r1.BinCloses I left1 none r2) (t : Runs r2 os r3) : Runs r (.binary sz reads :: os) r3

theorem Reader.Runs.append {r r1 r2 : Reader Z} {os os' : List Obs}
    (h : Reader.Runs I r os r1) (h' : Reader.Runs I r1 os' r2) : Reader.Runs I r (os ++ os') r2 := by
  induction h with
  | nil => exact h'
  | line r r1 _ res os h _ ih => exact .line _ _ _ _ _ h (ih h')
  | zlib r r1 _ sched os h _ ih => exact .zlib _ _ _ _ _ h (ih h')
  | binary r r1 r2 _ sz left left1 reads os hb hr hc _ ih =>
    exact .binary _ _ _ _ _ _ _ _ _ hb hr hc (ih h')

theorem Reader.Rem.orig_some {r : Reader Z} {its w m} (h : r.Rem I its w m) : ∃ b, r.orig = some b := by
  cases h with
  | plain b ho => exact ⟨b, ho⟩
  | zl b _ _ _ _ ho => exact ⟨b, ho⟩

theorem Reader.readLine_of_rem {r : Reader Z} {its w m} (h : r.Rem I its w m) (fuel : Nat) :
    r.readLine I fuel = r.readLoop I fuel [] := by
  obtain ⟨b, hb⟩ := h.orig_some
  simp [Reader.readLine, hb]

/-- Reading one line that the hooks accept. -/
theorem Reader.readsLine_accept {r : Reader Z} {l : Bytes} {rest : List Item} {w m : Nat}
    (hrem : r.Rem I ((l ++ [r.delim]).map Item.byte ++ rest) w m) (hl : r.delim ∉ l)
    (hmax : r.maxLine ≤ 0 ∨ ((l ++ [r.delim]).length : Int) ≤ r.maxLine)
    (hh : runHooks (l ++ [r.delim]) r.onLine = .accept) :
    ∃ r' w' m', r.SameCfg r' ∧ r'.Rem I rest w' m' ∧ (r'.curZ = true → m' = m) ∧
      r.ReadsLine I (l ++ [r.delim], none) r' := by
  obtain ⟨k, r', w', m', hcfg, hrem', _, hm, hloop⟩ :=
    Reader.loop_line I w r [] l rest m hrem hl (by simpa using hmax)
  refine ⟨r', w', m', hcfg, hrem', hm, k, ?_⟩
  intro fuel hf
  obtain ⟨f', _, heq⟩ := hloop fuel hf
  rw [Reader.readLine_of_rem I hrem, heq, Reader.finish, hcfg.2.2.1]
  simp [hh]

/-- Reading one line on which a hook fails. -/
theorem Reader.readsLine_fail {r : Reader Z} {l : Bytes} {rest : List Item} {w m : Nat} {e : Err}
    (hrem : r.Rem I ((l ++ [r.delim]).map Item.byte ++ rest) w m) (hl : r.delim ∉ l)
    (hmax : r.maxLine ≤ 0 ∨ ((l ++ [r.delim]).length : Int) ≤ r.maxLine)
    (hh : runHooks (l ++ [r.delim]) r.onLine = .fail e) :
    ∃ r' w' m', r.SameCfg r' ∧ r'.Rem I rest w' m' ∧ (r'.curZ = true → m' = m) ∧
      r.ReadsLine I ([], some e) r' := by
  obtain ⟨k, r', w', m', hcfg, hrem', _, hm, hloop⟩ :=
    Reader.loop_line I w r [] l rest m hrem hl (by simpa using hmax)
  refine ⟨r', w', m', hcfg, hrem', hm, k, ?_⟩
  intro fuel hf
  obtain ⟨f', _, heq⟩ := hloop fuel hf
  rw [Reader.readLine_of_rem I hrem, heq, Reader.finish, hcfg.2.2.1]
  simp [hh]

/-- A dropped line is invisible: the call continues with the rest of the stream. -/
theorem Reader.readsLine_drop {r : Reader Z} {l : Bytes} {rest : List Item} {w m : Nat}
    (hrem : r.Rem I ((l ++ [r.delim]).map Item.byte ++ rest) w m) (hl : r.delim ∉ l)
    (hmax : r.maxLine ≤ 0 ∨ ((l ++ [r.delim]).length : Int) ≤ r.maxLine)
    (hh : runHooks (l ++ [r.delim]) r.onLine = .drop) :
    ∃ r' w' m', r.SameCfg r' ∧ r'.Rem I rest w' m' ∧ (r'.curZ = true → m' = m) ∧
      ∀ res r'', r'.ReadsLine I res r'' → r.ReadsLine I res r'' := by
  obtain ⟨k, r', w', m', hcfg, hrem', _, hm, hloop⟩ :=
    Reader.loop_line I w r [] l rest m hrem hl (by simpa using hmax)
  refine ⟨r', w', m', hcfg, hrem', hm, ?_⟩
  rintro res r'' ⟨k2, h2⟩
  refine ⟨k + k2, ?_⟩
  intro fuel hf
  obtain ⟨f', hf', heq⟩ := hloop fuel (by omega)
  rw [Reader.readLine_of_rem I hrem, heq, Reader.finish, hcfg.2.2.1]
  simp only [List.nil_append, hh]
  rw [← Reader.readLine_of_rem I hrem']
  exact h2 f' (by omega)

/-- Reading the unterminated tail. -/
theorem Reader.readsLine_tail {r : Reader Z} {l : Bytes} {tl : List Item} {w m : Nat}
    (hrem : r.Rem I (l.map Item.byte ++ tl) w m) (hl : r.delim ∉ l)
    (hmax : r.maxLine ≤ 0 ∨ (l.length : Int) < r.maxLine)
    (htl : ∀ b tl', tl ≠ .byte b :: tl') :
    ∃ r' w' m', r.SameCfg r' ∧ r'.Rem I tl.tail w' m' ∧
      r.ReadsLine I (l, some (endErr tl)) r' := by
  obtain ⟨k, r', w', m', hcfg, hrem', hloop⟩ :=
    Reader.loop_tail I w r [] l tl m hrem hl (by simpa using hmax) htl
  refine ⟨r', w', m', hcfg, hrem', k, ?_⟩
  intro fuel hf
  rw [Reader.readLine_of_rem I hrem, hloop fuel hf]
  simp

/-- One `Read` of the original buffered reader over a clean source. -/
theorem Buf.read_spec (n : Nat) (hn : 0 < n) (b : Buf) (hc : b.src.Clean) :
    (b.items = [] ∧ b.read n = (([], some .eof), b)) ∨
    (∃ d b', d ≠ [] ∧ d.length ≤ n ∧ b.items = d.map Item.byte ++ b'.items ∧ b'.src.Clean ∧
      b.read n = ((d, none), b')) := by
  obtain ⟨s, buf⟩ := b
  cases buf with
  | cons x xs =>
    right
    refine ⟨(x :: xs).take n, ⟨s, (x :: xs).drop n⟩, ?_, by simp; omega, ?_, hc, rfl⟩
    · cases n with
      | zero => omega
      | succ n => simp
    · simp only [Buf.items]
      rw [← List.append_assoc, ← List.map_append, List.take_append_drop]
  | nil =>
    rcases Src.read_cases n hn s with ⟨h, hr⟩ | ⟨e, s', h, hr⟩ | ⟨d, e, s', hr, hd, hl, hi, hw, hz⟩ |
      ⟨d, s', hr, hd, hl, hi, hw, hz⟩
    · left; subst h; exact ⟨rfl, rfl⟩
    · have := hc ⟨[], some e⟩ (by simp [h]); simp at this
    · right
      obtain ⟨h1, h2, h3⟩ := hz hc
      exact ⟨d, ⟨s', []⟩, h1, hl, by simpa [Buf.items] using hi, h3, by simp [Buf.read, hr, h2]⟩
    · right
      exact ⟨d, ⟨s', []⟩, hd, hl, by simpa [Buf.items] using hi, hz hc, by simp [Buf.read, hr]⟩

/-- `io.ReadFull` of `n` bytes that are there. -/
theorem Buf.readFull_spec (n : Nat) : ∀ (acc h : Bytes) (its : List Item) (b : Buf),
    h.length = n → b.src.Clean → b.items = h.map Item.byte ++ its →
    ∃ b', b'.items = its ∧ b'.src.Clean ∧ 
      ∀ fuel ≥ n, b.readFull fuel n acc = .val ((acc ++ h, none), b') := by
  induction n using Nat.strongRecOn with
  | ind n ih =>
    intro acc h its b hlen hc hi
    cases n with
    | zero =>
      have : h = [] := List.length_eq_zero_iff.mp hlen
      subst this
      refine ⟨b, by simpa using hi, hc, ?_⟩
      intro fuel _
      simp [Buf.readFull]
    | succ n =>
      rcases Buf.read_spec (n + 1) (by omega) b hc with ⟨h0, _⟩ | ⟨d, b', hd, hdl, hsp, hc', hread⟩
      · rw [h0] at hi; cases h <;> simp at hi hlen
      · -- d is a prefix of h
        have hpre : ∃ h', h = d ++ h' ∧ b'.items = h'.map Item.byte ++ its := by
          rw [hi] at hsp
          clear hi hc hread ih
          have hle : d.length ≤ h.length := by omega
          clear hlen hd hdl
          induction d generalizing h with
          | nil => exact ⟨h, rfl, by simpa using hsp.symm⟩
          | cons x d ihd =>
            cases h with
            | nil => simp at hle
            | cons y h =>
              simp at hsp hle
              obtain ⟨h', h1, h2⟩ := ihd h hsp.2 hle
              exact ⟨h', by simp [h1, hsp.1], h2⟩
        obtain ⟨h', rfl, hits⟩ := hpre
        have hdpos : 0 < d.length := List.length_pos_iff.mpr hd
        by_cases hfull : n + 1 ≤ d.length
        · have : h' = [] := by
            apply List.length_eq_zero_iff.mp; simp at hlen; omega
          subst this
          refine ⟨b', by simpa using hits, hc', ?_⟩
          intro fuel hf
          obtain ⟨f', rfl⟩ : ∃ f', fuel = f' + 1 := ⟨fuel - 1, by omega⟩
          simp [Buf.readFull, hread, hfull]
        · obtain ⟨b2, hi2, hc2, h2⟩ := ih (n + 1 - d.length) (by omega) (acc ++ d) h' its b'
            (by simp at hlen; omega) hc' hits
          refine ⟨b2, hi2, hc2, ?_⟩
          intro fuel hf
          obtain ⟨f', rfl⟩ : ∃ f', fuel = f' + 1 := ⟨fuel - 1, by omega⟩
          simp only [Buf.readFull, hread, hfull, if_false]
          rw [h2 f' (by omega)]
          simp

/-- `EnableZlib` in front of a complete compressed section. -/
theorem Reader.enablesZlib {r : Reader Z} {h1 h2 : Byte} {c out : Bytes} {rest : List Item} {w m : Nat}
    {z : Z} (sched : List (Nat × Bool))
    (hrem : r.Rem I ((h1 :: h2 :: c).map Item.byte ++ rest) w m) (hclean : r.Clean)
    (hz : r.curZ = false) (hh : I.header h1 h2 = .ok z) (hinf : inflate I z c = some out) :
    ∃ r' w', r.delim = r'.delim ∧ r.maxLine = r'.maxLine ∧ r.onLine = r'.onLine ∧ r'.Clean ∧
      r'.Rem I (out.map Item.byte ++ rest) w' rest.length ∧ r.EnablesZlib I sched r' := by
  generalize hits : (h1 :: h2 :: c).map Item.byte ++ rest = its at hrem
  cases hrem with
  | zl b zr c' out' rest' ho hz' hc => simp [hz] at hc
  | plain b ho hz' hc =>
    obtain ⟨b', hi', hc', hfull⟩ := Buf.readFull_spec 2 [] [h1, h2] (c.map Item.byte ++ rest) b rfl
      (hclean b ho) (by rw [← hits]; simp)
    refine ⟨{ r with zlibOn := true, orig := some b', curZ := true, cbuf := [],
                     zlib := some ⟨z, [], none, sched⟩ }, _, rfl, rfl, rfl, ?_, 
      .zl b' ⟨z, [], none, sched⟩ c out rest rfl rfl rfl rfl rfl hc' hi' hinf, 2, ?_⟩
    · intro b1 hb1; cases hb1; exact hc'
    · intro fuel hf
      simp [Reader.enableZlib, ho, hz', hfull fuel hf, hh]

/-- One `Read`. -/
theorem Reader.read_step {r : Reader Z} {its : List Item} {w m n : Nat} (hn : 0 < n)
    (hrem : r.Rem I its w m) (hclean : r.Clean) :
    ∃ k r', r'.delim = r.delim ∧ r'.maxLine = r.maxLine ∧ r'.onLine = r.onLine ∧ r'.Clean ∧
      ((its = [] ∧ (∃ w' m', r'.Rem I [] w' m') ∧
          ∀ fuel ≥ k, r.read I fuel n = .val (([], some .eof), r')) ∨
       (∃ d its' w' m', d ≠ [] ∧ d.length ≤ n ∧ its = d.map Item.byte ++ its' ∧ r'.Rem I its' w' m' ∧
          (r'.curZ = true → m' = m ∧ r.curZ = true) ∧
          ∀ fuel ≥ k, r.read I fuel n = .val ((d, none), r'))) := by
  cases hrem with
  | plain b ho hz hc =>
    rcases Buf.read_spec n hn b (hclean b ho) with ⟨h0, hr⟩ | ⟨d, b', hd, hdl, hsp, hc', hr⟩
    · refine ⟨0, r, rfl, rfl, rfl, hclean, .inl ⟨h0, ⟨b.weight, b.items.length, ?_⟩, ?_⟩⟩
      · have := Reader.Rem.plain (I := I) b ho hz hc
        rw [h0] at this ⊢; exact this
      · intro fuel _
        simp [Reader.read, ho, Reader.curRead, hc, hr, hz]
        cases r; simp_all
    · refine ⟨0, { r with orig := some b' }, rfl, rfl, rfl, ?_, .inr ⟨d, _, _, _, hd, hdl, hsp,
        .plain b' rfl hz hc, by simp [hc], ?_⟩⟩
      · intro b1 hb1; cases hb1; exact hc'
      · intro fuel _
        simp [Reader.read, ho, Reader.curRead, hc, hr]
  | zl b zr c out rest ho hz hc hzr he hnz hi hinf =>
    cases hcb : r.cbuf with
    | cons x xs =>
      refine ⟨0, { r with cbuf := (x :: xs).drop n }, rfl, rfl, rfl, hclean, .inr
        ⟨(x :: xs).take n, _, _, _, ?_, by simp; omega, ?_,
          .zl b zr c out rest ho hz hc hzr he hnz hi hinf, fun _ => ⟨rfl, hc⟩, ?_⟩⟩
      · cases n with
        | zero => omega
        | succ n => simp
      · show _ = _ ++ (List.map Item.byte ((x :: xs).drop n ++ (zr.pend ++ out)) ++ rest)
        rw [← List.append_assoc (List.map Item.byte _), ← List.map_append, ← List.append_assoc (List.take _ _),
          List.take_append_drop]
      · intro fuel _
        simp [Reader.read, ho, Reader.curRead, hc, hcb]
    | nil =>
      obtain ⟨k, zr', b', he', hnz', hw', hcase⟩ := zRead_spec I n c zr b rest out he hnz hi hinf
      rcases hcase with ⟨h0, hi', hzread⟩ | ⟨d, e, c', out', hdl, hdn, hsplit, hi', hinf', hee, hzread⟩
      · -- end of the compressed stream, read again from the original
        rcases Buf.read_spec n hn b' hnz' with ⟨h0', hr⟩ | ⟨d, b2, hd, hdl, hsp, hc', hr⟩
        · refine ⟨k, { r with zlib := some zr', orig := some b', curZ := false, zlibOn := false, cbuf := [] },
            rfl, rfl, rfl, ?_, .inl ⟨?_, ⟨b'.weight, b'.items.length, ?_⟩, ?_⟩⟩
          · intro b1 hb1; cases hb1; exact hnz'
          · simp [h0, ← hi', h0']
          · have := Reader.Rem.plain (I := I) (r := { r with zlib := some zr', orig := some b', curZ := false, zlibOn := false, cbuf := [] }) b' rfl rfl rfl
            rw [h0'] at this ⊢; exact this
          · intro fuel hf
            obtain ⟨m, rfl⟩ := Nat.exists_eq_add_of_le' hf
            simp [Reader.read, ho, Reader.curRead, hc, hcb, hzr, hzread, hz, hr]
        · refine ⟨k, { r with zlib := some zr', orig := some b2, curZ := false, zlibOn := false, cbuf := [] },
            rfl, rfl, rfl, ?_, .inr ⟨d, b2.items, _, _, hd, hdl, ?_, .plain b2 rfl rfl rfl, by simp, ?_⟩⟩
          · intro b1 hb1; cases hb1; exact hc'
          · simp [h0, ← hi', hsp]
          · intro fuel hf
            obtain ⟨m, rfl⟩ := Nat.exists_eq_add_of_le' hf
            simp [Reader.read, ho, Reader.curRead, hc, hcb, hzr, hzread, hz, hr]
      · have hd := hdn hn
        rcases hee with rfl | ⟨rfl, hc'0, h00⟩
        · refine ⟨k, { r with zlib := some zr', orig := some b' }, rfl, rfl, rfl, ?_, .inr ⟨d, _, _, _, hd, hdl, ?_,
            .zl b' zr' c' out' rest rfl hz hc rfl he' hnz' hi' hinf', fun _ => ⟨rfl, hc⟩, ?_⟩⟩
          · intro b1 hb1; cases hb1; exact hnz'
          · simp [hsplit, hcb]
          · intro fuel hf
            obtain ⟨m, rfl⟩ := Nat.exists_eq_add_of_le' hf
            simp [Reader.read, ho, Reader.curRead, hc, hcb, hzr, hzread]
        · refine ⟨k, { r with zlib := some zr', orig := some b', curZ := false, zlibOn := false }, rfl, rfl, rfl, ?_,
            .inr ⟨d, b'.items, _, _, hd, hdl, ?_, .plain b' rfl rfl rfl, by simp, ?_⟩⟩
          · intro b1 hb1; cases hb1; exact hnz'
          · simp [hsplit, h00, hi', hc'0]
          · intro fuel hf
            obtain ⟨m, rfl⟩ := Nat.exists_eq_add_of_le' hf
            simp [Reader.read, ho, Reader.curRead, hc, hcb, hzr, hzread, hz, hd]

theorem map_byte_prefix {d bs : Bytes} {its' rest : List Item} (hle : d.length ≤ bs.length)
    (h : bs.map Item.byte ++ rest = d.map Item.byte ++ its') :
    ∃ bs', bs = d ++ bs' ∧ its' = bs'.map Item.byte ++ rest := by
  induction d generalizing bs with
  | nil => exact ⟨bs, rfl, by simpa using h.symm⟩
  | cons x d ihd =>
    cases bs with
    | nil => simp at hle
    | cons y bs =>
      simp at h hle
      obtain ⟨h', h1, h2⟩ := ihd hle h.2
      exact ⟨h', by simp [h1, h.1], h2⟩

/-- `Close` of a binary section consumes exactly what is left. -/
theorem Reader.binCloses_spec (n : Nat) : ∀ (r : Reader Z) (bs : Bytes) (rest : List Item) (w m : Nat),
    bs.length = n → r.Rem I (bs.map Item.byte ++ rest) w m → r.Clean →
    ∃ r' w' m', r'.delim = r.delim ∧ r'.maxLine = r.maxLine ∧ r'.onLine = r.onLine ∧ r'.Clean ∧
      r'.Rem I rest w' m' ∧ (r'.curZ = true → m' = m ∧ r.curZ = true) ∧ r.BinCloses I bs.length none r' := by
  induction n using Nat.strongRecOn with
  | ind n ih =>
    intro r bs rest w m hlen hrem hclean
    cases bs with
    | nil =>
      refine ⟨r, w, m, rfl, rfl, rfl, hclean, by simpa using hrem, fun h => ⟨rfl, h⟩, 1, ?_⟩
      intro fuel hf
      obtain ⟨f', rfl⟩ : ∃ f', fuel = f' + 1 := ⟨fuel - 1, by omega⟩
      simp [Reader.binClose, Reader.binRead]
    | cons x bs =>
      obtain ⟨k, r1, h1, h2, h3, hcl1, hcase⟩ := Reader.read_step I (n := min 8192 (x :: bs).length)
        (by simp; omega) hrem hclean
      rcases hcase with ⟨h0, _⟩ | ⟨d, its', w', m', hd, hdl, hsp, hrem', hm', hread⟩
      · simp at h0
      · obtain ⟨bs', hbs, rfl⟩ := map_byte_prefix (by omega) hsp
        have hdpos : 0 < d.length := List.length_pos_iff.mpr hd
        have hlen2 := congrArg List.length hbs
        simp only [List.length_append] at hlen2
        obtain ⟨r2, w2, m2, g1, g2, g3, hcl2, hrem2, hm2, k2, hclose⟩ :=
          ih bs'.length (by omega) r1 bs' rest w' m' rfl hrem' hcl1
        refine ⟨r2, w2, m2, g1.trans h1, g2.trans h2, g3.trans h3, hcl2, hrem2, ?_, max k k2 + 1, ?_⟩
        · intro hz
          obtain ⟨a1, a2⟩ := hm2 hz
          obtain ⟨b1, b2⟩ := hm' a2
          exact ⟨a1.trans b1, b2⟩
        · intro fuel hf
          obtain ⟨f', rfl⟩ : ∃ f', fuel = f' + 1 := ⟨fuel - 1, by omega⟩
          simp only [Reader.binClose, Reader.binRead]
          rw [if_neg (by simp), hread f' (by omega)]
          have : (x :: bs).length - d.length = bs'.length := by omega
          simp only [this]
          exact hclose f' (by omega)

end Verif.Lineproto
