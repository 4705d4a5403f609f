import Verif.Lineproto.Reader

/-!
# Lemmas about the line reader: the remaining logical stream
-/

namespace Verif.Lineproto

/-- What a buffered reader can observe: bytes, and errors that come without data. -/
inductive Item where
  | byte (b : Byte)
  | fault (e : Err)
deriving DecidableEq, Repr

/-- The items a script yields before its final end of file. -/
def Src.items : Src → List Item
  | [] => []
  | ev :: s =>
    (if ev.data = [] then ev.err.toList.map Item.fault else ev.data.map Item.byte) ++ Src.items s

def Buf.items (b : Buf) : List Item := b.buf.map Item.byte ++ b.src.items

/-- Every result is a non-empty chunk of data without error. -/
def Src.Clean (s : Src) : Prop := ∀ ev ∈ s, ev.data ≠ [] ∧ ev.err = none

/-- Work left in a script. -/
def Src.weight : Src → Nat
  | [] => 0
  | ev :: s => 2 * (1 + ev.data.length) + Src.weight s

def Buf.weight (b : Buf) : Nat := b.src.weight + b.buf.length

theorem Src.read_cases (n : Nat) (hn : 0 < n) (s : Src) :
    (s = [] ∧ s.read n = (([], some .eof), [])) ∨
    (∃ e s', s = ⟨[], some e⟩ :: s' ∧ s.read n = (([], some e), s')) ∨
    (∃ d e s', s.read n = ((d, e), s') ∧ (d ≠ [] ∨ e = none) ∧ d.length ≤ n ∧
      s.items = d.map Item.byte ++ Src.items s' ∧ Src.weight s' + 2 * d.length < s.weight ∧
      (s.Clean → d ≠ [] ∧ e = none ∧ Src.Clean s')) ∨
    (∃ d s', s.read n = ((d, none), s') ∧ d ≠ [] ∧ d.length ≤ n ∧
      s.items = d.map Item.byte ++ Src.items s' ∧ Src.weight s' + d.length < s.weight ∧
      (s.Clean → Src.Clean s')) := by
  cases s with
  | nil => left; simp [Src.read]
  | cons ev s =>
    right
    by_cases h : ev.data.length ≤ n
    · by_cases hd : ev.data = []
      · cases he : ev.err with
        | some e =>
          left
          refine ⟨e, s, ?_, ?_⟩
          · cases ev; simp_all
          · simp [Src.read, hd, he]
        | none =>
          right; left
          refine ⟨[], none, s, by simp [Src.read, hd, he], by simp, by simp, ?_, ?_, ?_⟩
          · simp [Src.items, hd, he]
          · simp [Src.weight]; omega
          · intro hz; have := hz ev (by simp); simp_all
      · right; left
        refine ⟨ev.data, ev.err, s, by simp [Src.read, h], .inl hd, h, ?_, ?_, ?_⟩
        · simp [Src.items, hd]
        · simp [Src.weight]; omega
        · intro hz; exact ⟨hd, (hz ev (by simp)).2, fun e he => hz e (by simp [he])⟩
    · right; right
      refine ⟨ev.data.take n, { ev with data := ev.data.drop n } :: s, by simp [Src.read, h], ?_, ?_, ?_, ?_, ?_⟩
      · intro h0
        have := congrArg List.length h0
        rw [List.length_take, List.length_nil] at this; omega
      · simp; omega
      · have h1 : ev.data ≠ [] := by intro h0; simp [h0] at h
        have h2 : ev.data.drop n ≠ [] := by intro h0; simp at h0; omega
        simp only [Src.items, h1, h2, if_false]
        rw [← List.append_assoc, ← List.map_append, List.take_append_drop]
      · simp only [Src.weight, List.length_take, List.length_drop]; omega
      · intro hz e he
        simp only [List.mem_cons] at he
        rcases he with rfl | he
        · exact ⟨by intro h0; simp at h0; omega, (hz ev (by simp)).2⟩
        · exact hz e (by simp [he])

/-- `peek` on an exhausted buffer. -/
theorem Buf.peek_spec (s : Src) :
    (s = [] ∧ Buf.peek ⟨s, []⟩ = (some .eof, ⟨[], []⟩)) ∨
    (∃ e s', s.items = .fault e :: Src.items s' ∧ Buf.peek ⟨s, []⟩ = (some e, ⟨s', []⟩) ∧
      (s.Clean → Src.Clean s')) ∨
    (∃ d s', Buf.peek ⟨s, []⟩ = (none, ⟨s', d⟩) ∧ d.length ≤ readBuf ∧
      s.items = d.map Item.byte ++ Src.items s' ∧ Src.weight s' + d.length < s.weight ∧
      (s.Clean → d ≠ [] ∧ Src.Clean s')) := by
  rcases Src.read_cases readBuf (by decide) s with ⟨h, hr⟩ | ⟨e, s', h, hr⟩ | ⟨d, e, s', hr, hd, hl, hi, hw, hz⟩ |
      ⟨d, s', hr, hd, hl, hi, hw, hz⟩
  · left; subst h; exact ⟨rfl, by simp [Buf.peek, hr]⟩
  · right; left
    refine ⟨e, s', by simp [h, Src.items], by simp [Buf.peek, hr], ?_⟩
    intro hz e he; exact hz e (by simp [h, he])
  · right; right
    refine ⟨d, s', ?_, hl, hi, by omega, fun h => ⟨(hz h).1, (hz h).2.2⟩⟩
    unfold Buf.peek
    simp only [hr]
    cases d with
    | nil => have : e = none := by simpa using hd
             subst this; rfl
    | cons c d => rfl
  · right; right
    refine ⟨d, s', ?_, hl, hi, by omega, fun h => ⟨hd, hz h⟩⟩
    unfold Buf.peek
    simp only [hr]

theorem Buf.readByte_spec (b : Buf) (c : Byte) (its : List Item)
    (hz : b.src.Clean) (h : b.items = .byte c :: its) :
    ∃ b', b.readByte = .val (.inl c, b') ∧ b'.items = its ∧ b'.src.Clean ∧
      b'.weight ≤ b.weight := by
  obtain ⟨s, buf⟩ := b
  cases buf with
  | cons x xs =>
    simp [Buf.items] at h
    exact ⟨⟨s, xs⟩, by simp [Buf.readByte, h.1], by simpa [Buf.items] using h.2, hz,
      by simp [Buf.weight]⟩
  | nil =>
    simp only [Buf.items, List.map_nil, List.nil_append] at h
    rcases Buf.peek_spec s with ⟨h1, _⟩ | ⟨e, s', h1, _⟩ | ⟨d, s', hp, _, hi, hw, hzz⟩
    · simp [h1, Src.items] at h
    · simp [h1] at h
    · have ⟨hd, hz'⟩ := hzz hz
      cases d with
      | nil => exact absurd rfl hd
      | cons x xs =>
        rw [h] at hi
        simp at hi
        exact ⟨⟨s', xs⟩, by simp [Buf.readByte, hp, hi.1], by simp [Buf.items, hi.2], hz',
          by simp [Buf.weight] at hw ⊢; omega⟩

theorem Src.fetch_spec (s : Src) (c : Byte) (its : List Item) (hz : s.Clean) (h : s.items = .byte c :: its) :
    ∃ s', s.fetch = (.inl (c, none), s') ∧ Src.items s' = its ∧ Src.Clean s' ∧ Src.weight s' ≤ s.weight := by
  cases s with
  | nil => simp [Src.items] at h
  | cons ev s =>
    obtain ⟨h1, h2⟩ := hz ev (by simp)
    have hz' : Src.Clean s := fun e he => hz e (by simp [he])
    obtain ⟨d, e⟩ := ev
    simp only at h1 h2
    subst h2
    match d, h1 with
    | [x], _ =>
      simp [Src.items] at h
      exact ⟨s, by simp [Src.fetch, h.1], h.2, hz', by simp [Src.weight]⟩
    | x :: y :: d, _ =>
      simp [Src.items] at h
      refine ⟨⟨y :: d, none⟩ :: s, by simp [Src.fetch, h.1], by simp [Src.items, h.2], ?_, by simp [Src.weight]; omega⟩
      intro e he
      rcases List.mem_cons.mp he with rfl | he
      · simp
      · exact hz' e he

theorem Buf.zByte_spec (n : Nat) (b : Buf) (c : Byte) (its : List Item)
    (hz : b.src.Clean) (h : b.items = .byte c :: its) :
    ∃ b', b.zByte n = .val (.inl (c, none), b') ∧ b'.items = its ∧ b'.src.Clean ∧
      b'.weight ≤ b.weight := by
  by_cases hn : n = 0
  · obtain ⟨b', h1, h2⟩ := Buf.readByte_spec b c its hz h
    exact ⟨b', by simp [Buf.zByte, hn, h1], h2⟩
  · obtain ⟨s, buf⟩ := b
    cases buf with
    | cons x xs =>
      simp [Buf.items] at h
      exact ⟨⟨s, xs⟩, by simp [Buf.zByte, hn, h.1], by simpa [Buf.items] using h.2, hz,
        by simp [Buf.weight]⟩
    | nil =>
      simp only [Buf.items, List.map_nil, List.nil_append] at h
      obtain ⟨s', h1, h2, h3, h4⟩ := Src.fetch_spec s c its hz h
      exact ⟨⟨s', []⟩, by simp [Buf.zByte, hn, h1], by simpa [Buf.items] using h2, h3, by simpa [Buf.weight] using h4⟩

theorem scanBuf_spec (delim : Byte) (bs : Bytes) :
    (delim ∉ bs ∧ scanBuf delim bs = (bs, true, [])) ∨
    (∃ l rest, delim ∉ l ∧ bs = l ++ delim :: rest ∧
      scanBuf delim bs = (l ++ [delim], false, rest)) := by
  induction bs with
  | nil => left; simp [scanBuf]
  | cons c cs ih =>
    by_cases h : c = delim
    · right; exact ⟨[], cs, by simp, by simp [h], by simp [scanBuf, h]⟩
    · rcases ih with ⟨hn, hs⟩ | ⟨l, rest, hn, hb, hs⟩
      · left; simp [scanBuf, h, hs, hn, Ne.symm h]
      · right
        exact ⟨c :: l, rest, by simp [hn, Ne.symm h], by simp [hb], by simp [scanBuf, h, hs]⟩

/-- Complete inflation of exactly the bytes `c`, starting from state `z`. -/
def inflate {Z : Type} (I : Inflater Z) (z : Z) : Bytes → Option Bytes
  | [] => if I.status z = .done then some [] else none
  | c :: cs =>
    if I.status z = .running then
      (inflate I (I.step z c).1 cs).map ((I.step z c).2 ++ ·)
    else none

variable {Z : Type} (I : Inflater Z)

theorem zFill_spec (want : Nat) (c : Bytes) :
    ∀ (zr : ZRd Z) (b : Buf) (rest : List Item) (out : Bytes),
      zr.zerr = none → b.src.Clean → b.items = c.map Item.byte ++ rest →
      inflate I zr.z c = some out →
      ∃ k zr' b' c' out', (∀ fuel, zFill I want (fuel + k) zr b = .val (zr', b')) ∧
        zr'.zerr = none ∧ b'.src.Clean ∧ b'.weight ≤ b.weight ∧
        b'.items = c'.map Item.byte ++ rest ∧
        inflate I zr'.z c' = some out' ∧ zr'.pend ++ out' = zr.pend ++ out ∧
        (want ≤ zr'.pend.length ∨ (c' = [] ∧ out' = [] ∧ I.status zr'.z = .done)) := by
  induction c with
  | nil =>
    intro zr b rest out he hz hi ho
    have hst : I.status zr.z = .done := by
      unfold inflate at ho; split at ho <;> simp_all
    have hout : out = [] := by simp [inflate, hst] at ho; simp [ho]
    refine ⟨1, zr, b, [], [], ?_, he, hz, Nat.le_refl _, hi, by simp [inflate, hst], by simp [hout], .inr ⟨rfl, rfl, hst⟩⟩
    intro fuel
    simp [zFill, he, hst]
  | cons x c ih =>
    intro zr b rest out he hz hi ho
    have hst : I.status zr.z = .running := by
      unfold inflate at ho; split at ho <;> simp_all
    simp only [inflate, hst, if_true, Option.map_eq_some_iff] at ho
    obtain ⟨out1, ho1, ho2⟩ := ho
    by_cases hw : want ≤ zr.pend.length
    · refine ⟨1, zr, b, x :: c, out, ?_, he, hz, Nat.le_refl _, hi, ?_, rfl, .inl hw⟩
      · intro fuel; simp [zFill, hw]
      · simp [inflate, hst, ho1, ho2]
    · obtain ⟨b1, hb1, hib1, hzb1, hwb1⟩ := Buf.zByte_spec (I.want zr.z) b x (c.map Item.byte ++ rest) hz (by simpa using hi)
      obtain ⟨k, zr', b', c', out', hf, h1, h2, hw2, h3, h4, h5, h6⟩ :=
        ih { zr with z := (I.step zr.z x).1, pend := zr.pend ++ (I.step zr.z x).2 } b1 rest out1
          he hzb1 hib1 ho1
      refine ⟨k + 1, zr', b', c', out', ?_, h1, h2, by omega, h3, h4, ?_, h6⟩
      · intro fuel
        rw [← Nat.add_assoc]
        simp only [zFill, hw, he, hst, hb1, if_false, Option.isSome_none, Bool.false_eq_true, Option.map_none]
        rw [he] at hf
        exact hf fuel
      · rw [h5, ← ho2]; simp

/-- One `Read` of the zlib reader inside a complete stream. -/
theorem zRead_spec (n : Nat) (c : Bytes) (zr : ZRd Z) (b : Buf) (rest : List Item) (out : Bytes)
    (he : zr.zerr = none) (hz : b.src.Clean) (hi : b.items = c.map Item.byte ++ rest)
    (ho : inflate I zr.z c = some out) :
    ∃ k zr' b', zr'.zerr = none ∧ b'.src.Clean ∧ b'.weight ≤ b.weight ∧
      ((zr.pend ++ out = [] ∧ b'.items = rest ∧
          ∀ fuel, zRead I (fuel + k) n zr b = .val (([], some .eof), zr', b')) ∨
       (∃ d e c' out', d.length ≤ n ∧ (0 < n → d ≠ []) ∧ zr.pend ++ out = d ++ (zr'.pend ++ out') ∧
          b'.items = c'.map Item.byte ++ rest ∧ inflate I zr'.z c' = some out' ∧
          (e = none ∨ (e = some .eof ∧ c' = [] ∧ zr'.pend ++ out' = [])) ∧
          ∀ fuel, zRead I (fuel + k) n zr b = .val ((d, e), zr', b'))) := by
  obtain ⟨k, zr1, b1, c1, out1, hf, h1, h2, hw2, h3, h4, h5, h6⟩ :=
    zFill_spec I (max 1 (zr.sched.headD (1, false)).1) c zr b rest out he hz hi ho
  refine ⟨k, { zr1 with pend := zr1.pend.drop n, sched := zr.sched.tail }, b1, h1, h2, hw2, ?_⟩
  by_cases hp : zr1.pend = []
  · left
    rcases h6 with h6 | ⟨hc, hout, hst⟩
    · exfalso; rw [hp, List.length_nil] at h6; omega
    · refine ⟨by rw [← h5, hp, hout]; rfl, by simpa [hc] using h3, ?_⟩
      intro fuel
      simp only [zRead, hf, hp, zFinal, h1, hst, if_true, List.drop_nil]
  · right
    refine ⟨zr1.pend.take n, if zr1.pend.drop n = [] ∧
        (zr1.zerr.isSome || (I.status zr1.z != .running)) = true ∧
        (zr.sched.headD (1, false)).2 = true then some (zFinal I zr1) else none, c1, out1, by simp; omega, ?_, ?_, h3, h4, ?_, ?_⟩
    rotate_left 3
    · intro fuel
      simp only [zRead, hf]
      rw [if_neg hp]
    · intro hn h0
      cases h : zr1.pend with
      | nil => exact hp h
      | cons a l => rw [h] at h0; cases n with
        | zero => omega
        | succ n => simp at h0
    · rw [← h5, ← List.append_assoc, List.take_append_drop]
    · split
      · rename_i hcond
        obtain ⟨hr, hfin, _⟩ := hcond
        right
        simp only [h1, Option.isSome_none, Bool.false_or, bne_iff_ne] at hfin
        -- the stream is complete
        have hc1 : c1 = [] ∧ out1 = [] ∧ I.status zr1.z = .done := by
          cases c1 with
          | nil =>
            simp only [inflate] at h4
            split at h4
            · rename_i hd; simp at h4; exact ⟨rfl, by simp [h4], hd⟩
            · simp at h4
          | cons a c1 => simp [inflate, hfin] at h4
        simp [zFinal, h1, hc1, hr]
      · left; rfl

/-- One `Scan` of the original reader. -/
theorem Buf.scan_spec (delim : Byte) (b : Buf) :
    ∃ res b', b.scan delim = (res, b') ∧ (b.src.Clean → b'.src.Clean) ∧
      ((res = ([], false, some .eof) ∧ b.items = [] ∧ b'.items = []) ∨
       (∃ e, res = ([], false, some e) ∧ b.items = .fault e :: b'.items) ∨
       (∃ p, res = (p, true, none) ∧ delim ∉ p ∧ b.items = p.map Item.byte ++ b'.items ∧
          b'.weight < b.weight) ∨
       (∃ l, res = (l ++ [delim], false, none) ∧ delim ∉ l ∧
          b.items = (l ++ [delim]).map Item.byte ++ b'.items ∧ b'.weight < b.weight)) := by
  obtain ⟨s, buf⟩ := b
  cases buf with
  | cons x xs =>
    rcases scanBuf_spec delim (x :: xs) with ⟨hn, hs⟩ | ⟨l, rest, hn, hb, hs⟩
    · refine ⟨_, ⟨s, []⟩, by simp only [Buf.scan, hs], id, .inr (.inr (.inl ⟨x :: xs, rfl, hn, ?_, ?_⟩))⟩
      · simp [Buf.items]
      · simp [Buf.weight]
    · refine ⟨_, ⟨s, rest⟩, by simp only [Buf.scan, hs], id, .inr (.inr (.inr ⟨l, rfl, hn, ?_, ?_⟩))⟩
      · simp [Buf.items, hb]
      · simp [Buf.weight, hb]; omega
  | nil =>
    rcases Buf.peek_spec s with ⟨h1, hp⟩ | ⟨e, s', h1, hp, hz⟩ | ⟨d, s', hp, hl, hi, hw, hzz⟩
    · subst h1
      exact ⟨_, ⟨[], []⟩, by simp only [Buf.scan, hp], id, .inl ⟨rfl, rfl, rfl⟩⟩
    · exact ⟨_, ⟨s', []⟩, by simp only [Buf.scan, hp], hz, .inr (.inl ⟨e, rfl, by simpa [Buf.items] using h1⟩)⟩
    · rcases scanBuf_spec delim d with ⟨hn, hs⟩ | ⟨l, rest, hn, hb, hs⟩
      · refine ⟨_, ⟨s', []⟩, by simp only [Buf.scan, hp, hs], fun h => (hzz h).2,
          .inr (.inr (.inl ⟨d, rfl, hn, ?_, ?_⟩))⟩
        · simpa [Buf.items] using hi
        · simp [Buf.weight]; omega
      · refine ⟨_, ⟨s', rest⟩, by simp only [Buf.scan, hp, hs], fun h => (hzz h).2,
          .inr (.inr (.inr ⟨l, rfl, hn, ?_, ?_⟩))⟩
        · simp [Buf.items, hi, hb]
        · have := congrArg List.length hb
          simp at this
          simp [Buf.weight]; omega

/-- `Rem I r its w m`: the reader is open, not in a failed state, and the logical stream it is going
to deliver is `its` (bytes and errors, then end of file); `w` bounds the work left; the last `m`
items come from outside the current compressed section. -/
inductive Reader.Rem (r : Reader Z) : List Item → Nat → Nat → Prop
  | plain (b : Buf) (ho : r.orig = some b) (hz : r.zlibOn = false) (hc : r.curZ = false) :
      Rem r b.items b.weight b.items.length
  | zl (b : Buf) (zr : ZRd Z) (c out : Bytes) (rest : List Item)
      (ho : r.orig = some b) (hz : r.zlibOn = true) (hc : r.curZ = true)
      (hzr : r.zlib = some zr) (he : zr.zerr = none) (hnz : b.src.Clean)
      (hi : b.items = c.map Item.byte ++ rest) (hinf : inflate I zr.z c = some out) :
      Rem r ((r.cbuf ++ (zr.pend ++ out)).map Item.byte ++ rest)
        ((r.cbuf ++ (zr.pend ++ out)).length + 1 + b.weight) rest.length

/-- The source under the reader is clean. -/
def Reader.Clean (r : Reader Z) : Prop := ∀ b, r.orig = some b → b.src.Clean

/-- Configuration that reading does not change. -/
def Reader.SameCfg (r r' : Reader Z) : Prop :=
  r'.delim = r.delim ∧ r'.maxLine = r.maxLine ∧ r'.onLine = r.onLine ∧ (r.Clean → r'.Clean) ∧
    (r'.curZ = true → r.curZ = true)

theorem Reader.SameCfg.trans {r r' r'' : Reader Z} (h : r.SameCfg r') (h' : r'.SameCfg r'') :
    r.SameCfg r'' := by
  exact ⟨h'.1.trans h.1, h'.2.1.trans h.2.1, h'.2.2.1.trans h.2.2.1, fun hc => h'.2.2.2.1 (h.2.2.2.1 hc),
    fun hc => h.2.2.2.2 (h'.2.2.2.2 hc)⟩

/-- What the loop does with a complete line (reader.go:213-224). -/
def Reader.finish (r : Reader Z) (fuel : Nat) (line : Bytes) : Exec ((Bytes × Option Err) × Reader Z) :=
  match runHooks line r.onLine with
  | .accept => .val ((line, none), r)
  | .drop => r.readLoop I fuel []
  | .fail e => .val (([], some e), r)

/-- One iteration of the read loop. -/
theorem Reader.loop_step (r : Reader Z) (its : List Item) (w m : Nat) (acc : Bytes)
    (hrem : r.Rem I its w m) (hmax : ¬ (r.maxLine > 0 ∧ (acc.length : Int) ≥ r.maxLine)) :
    ∃ k r', r.SameCfg r' ∧
      ((its = [] ∧ (∃ w' m', r'.Rem I [] w' m') ∧
          ∀ fuel ≥ k, r.readLoop I (fuel + 1) acc = .val ((acc, some .eof), r')) ∨
       (∃ e its' w' m', its = .fault e :: its' ∧ r'.Rem I its' w' m' ∧
          ∀ fuel ≥ k, r.readLoop I (fuel + 1) acc = .val ((acc, some e), r')) ∨
       (∃ p its' w' m', its = p.map Item.byte ++ its' ∧ r.delim ∉ p ∧ r'.Rem I its' w' m' ∧ w' < w ∧
          (r'.curZ = true → m' = m) ∧
          ∀ fuel ≥ k, r.readLoop I (fuel + 1) acc = r'.readLoop I fuel (acc ++ p)) ∨
       (∃ l its' w' m', its = (l ++ [r.delim]).map Item.byte ++ its' ∧ r.delim ∉ l ∧ r'.Rem I its' w' m' ∧ w' < w ∧
          (r'.curZ = true → m' = m) ∧
          ∀ fuel ≥ k, r.readLoop I (fuel + 1) acc = r'.finish I fuel (acc ++ (l ++ [r.delim])))) := by
  cases hrem with
  | plain b ho hz hc =>
    obtain ⟨res, b', hs, hclean, hcases⟩ := Buf.scan_spec r.delim b
    refine ⟨0, { r with orig := some b' }, ⟨rfl, rfl, rfl, ?_, id⟩, ?_⟩
    · intro h b1 hb1; cases hb1; exact hclean (h b ho)
    have hscan : ∀ fuel, r.scan I fuel b = .val (res, { r with orig := some b' }) := by
      intro fuel; simp [Reader.scan, hc, hs]
    rcases hcases with ⟨hr, h1, h2⟩ | ⟨e, hr, h1⟩ | ⟨p, hr, hp, h1, hw⟩ | ⟨l, hr, hl, h1, hw⟩
    · left
      refine ⟨h1, ⟨b'.weight, b'.items.length, ?_⟩, ?_⟩
      · have := Reader.Rem.plain (I := I) (r := { r with orig := some b' }) b' rfl hz hc
        rw [h2] at this ⊢; exact this
      · intro fuel _
        simp [Reader.readLoop, ho, hmax, hscan, hr, hz]
    · right; left
      refine ⟨e, b'.items, b'.weight, _, h1, .plain b' rfl hz hc, ?_⟩
      intro fuel _
      simp [Reader.readLoop, ho, hmax, hscan, hr, hz]
    · right; right; left
      refine ⟨p, b'.items, b'.weight, _, h1, hp, .plain b' rfl hz hc, hw, by simp [hc], ?_⟩
      intro fuel _
      simp [Reader.readLoop, ho, hmax, hscan, hr]
    · right; right; right
      refine ⟨l, b'.items, b'.weight, _, h1, hl, .plain b' rfl hz hc, hw, by simp [hc], ?_⟩
      intro fuel _
      simp only [Reader.readLoop, ho, hmax, hscan, hr, Reader.finish]
      simp; rfl
  | zl b zr c out rest ho hz hc hzr he hnz hi hinf =>
    cases hcb : r.cbuf with
    | cons x xs =>
      rcases scanBuf_spec r.delim (x :: xs) with ⟨hn, hs⟩ | ⟨l, rst, hn, hb, hs⟩
      · refine ⟨0, { r with cbuf := [] }, ⟨rfl, rfl, rfl, id, id⟩, .inr (.inr (.inl
          ⟨x :: xs, _, _, _, ?_, hn, .zl b zr c out rest ho hz hc hzr he hnz hi hinf, ?_, fun _ => rfl, ?_⟩))⟩
        · simp
        · simp; omega
        · intro fuel _
          simp [Reader.readLoop, ho, hmax, Reader.scan, hc, hcb, hs]
      · refine ⟨0, { r with cbuf := rst }, ⟨rfl, rfl, rfl, id, id⟩, .inr (.inr (.inr
          ⟨l, _, _, _, ?_, hn, .zl b zr c out rest ho hz hc hzr he hnz hi hinf, ?_, fun _ => rfl, ?_⟩))⟩
        · simp [hb]
        · rw [hb]; simp; omega
        · intro fuel _
          simp only [Reader.readLoop, ho, hmax, Reader.scan, hc, hcb, hs, Reader.finish]
          simp; rfl
    | nil =>
      obtain ⟨k, zr', b', he', hnz', hw', hcase⟩ := zRead_spec I readBuf c zr b rest out he hnz hi hinf
      rcases hcase with ⟨h0, hi', hzread⟩ | ⟨d, e, c', out', hdl, hdn, hsplit, hi', hinf', _, hzread⟩
      · -- end of the compressed stream: back to the original reader
        refine ⟨k, { r with zlib := some zr', orig := some b', curZ := false, zlibOn := false, cbuf := [] },
          ⟨rfl, rfl, rfl, fun _ b1 hb1 => by cases hb1; exact hnz', by simp⟩,
          .inr (.inr (.inl ⟨[], b'.items, b'.weight, _, ?_, by simp,
            .plain b' rfl rfl rfl, ?_, by simp, ?_⟩))⟩
        · simp [h0, hi']
        · simp [h0]; omega
        · intro fuel hf
          obtain ⟨m, rfl⟩ := Nat.exists_eq_add_of_le' hf
          simp only [Reader.readLoop, ho, hmax, Reader.scan, hc, hcb, hzr, zPeek, hzread]
          simp [hz]
      · have hd := hdn (by decide)
        have hpeek : ∀ m, zPeek I (m + k) zr b = .val (.inl d, zr', b') := by
          intro m
          simp only [zPeek, hzread]
          cases hd' : d with
          | nil => exact absurd hd' hd
          | cons a d => rfl
        rcases scanBuf_spec r.delim d with ⟨hn, hs⟩ | ⟨l, rst, hn, hb, hs⟩
        · refine ⟨k, { r with zlib := some zr', orig := some b', cbuf := [] }, ⟨rfl, rfl, rfl, fun _ b1 hb1 => by cases hb1; exact hnz', by simp⟩,
            .inr (.inr (.inl ⟨d, _, _, _, ?_, hn, .zl b' zr' c' out' rest rfl hz hc rfl he' hnz' hi' hinf', ?_, fun _ => rfl, ?_⟩))⟩
          · simp [hsplit]
          · have : 0 < d.length := List.length_pos_iff.mpr hd
            simp only [hsplit, List.nil_append, List.length_append]; omega
          · intro fuel hf
            obtain ⟨m, rfl⟩ := Nat.exists_eq_add_of_le' hf
            simp only [Reader.readLoop, ho, hmax, Reader.scan, hc, hcb, hzr, hpeek, hs]
            simp
        · refine ⟨k, { r with zlib := some zr', orig := some b', cbuf := rst }, ⟨rfl, rfl, rfl, fun _ b1 hb1 => by cases hb1; exact hnz', by simp⟩,
            .inr (.inr (.inr ⟨l, _, _, _, ?_, hn, .zl b' zr' c' out' rest rfl hz hc rfl he' hnz' hi' hinf', ?_, fun _ => rfl, ?_⟩))⟩
          · simp [hsplit, hb]
          · have := congrArg List.length hb
            simp only [List.length_append, List.length_cons] at this
            simp only [hsplit, List.nil_append, List.length_append]; omega
          · intro fuel hf
            obtain ⟨m, rfl⟩ := Nat.exists_eq_add_of_le' hf
            simp only [Reader.readLoop, ho, hmax, Reader.scan, hc, hcb, hzr, hpeek, hs, Reader.finish]
            simp; rfl

/-- `delim` does not occur in a byte list iff `l ++ [delim]` is the first line. -/
theorem line_prefix_unique {d : Byte} {p l : Bytes} {its' rest : List Item} (hp : d ∉ p)
    (h : p.map Item.byte ++ its' = (l ++ [d]).map Item.byte ++ rest) :
    ∃ l', l = p ++ l' ∧ its' = (l' ++ [d]).map Item.byte ++ rest := by
  induction p generalizing l with
  | nil => exact ⟨l, rfl, by simpa using h⟩
  | cons x p ih =>
    simp only [List.mem_cons, not_or] at hp
    cases l with
    | nil => simp at h; exact absurd h.1.symm hp.1
    | cons y l =>
      simp only [List.map_cons, List.cons_append, List.cons.injEq, Item.byte.injEq] at h
      obtain ⟨l', rfl, h2⟩ := ih hp.2 h.2
      exact ⟨l', by simp [h.1], h2⟩

/-- Reading up to the end of a line: after `k` more steps the loop is at `finish` with the whole
line. -/
theorem Reader.loop_line (w : Nat) : ∀ (r : Reader Z) (acc l : Bytes) (rest : List Item) (m : Nat),
    r.Rem I ((l ++ [r.delim]).map Item.byte ++ rest) w m → r.delim ∉ l →
    (r.maxLine ≤ 0 ∨ ((acc ++ (l ++ [r.delim])).length : Int) ≤ r.maxLine) →
    ∃ k r' w' m', r.SameCfg r' ∧ r'.Rem I rest w' m' ∧ w' < w ∧ (r'.curZ = true → m' = m) ∧
      ∀ fuel ≥ k, ∃ fuel' , fuel' + k ≥ fuel ∧ r.readLoop I fuel acc = r'.finish I fuel' (acc ++ (l ++ [r.delim])) := by
  induction w using Nat.strongRecOn with
  | ind w ih =>
    intro r acc l rest m hrem hl hmax
    have hm : ¬ (r.maxLine > 0 ∧ (acc.length : Int) ≥ r.maxLine) := by
      simp at hmax; omega
    obtain ⟨k, r1, hcfg, hcase⟩ := Reader.loop_step I r _ w m acc hrem hm
    rcases hcase with ⟨h, _⟩ | ⟨e, its', w', m', h, _⟩ | ⟨p, its', w', m', h, hp, hrem', hlt, hm', hloop⟩ |
        ⟨p, its', w', m', h, hp, hrem', hlt, hm', hloop⟩
    · simp at h
    · cases l <;> simp at h
    · obtain ⟨l', hl', hits⟩ := line_prefix_unique hp h.symm
      subst hl'
      rw [hits] at hrem'
      obtain ⟨hc1, hc2, hc3, hc4, hc5⟩ := hcfg
      rw [← hc1] at hrem'
      obtain ⟨k2, r2, w2, m2, hcfg2, hrem2, hlt2, hm2, hloop2⟩ := ih w' hlt r1 (acc ++ p) l' rest m' hrem'
        (by rw [hc1]; simp at hl; exact hl.2)
        (by rw [hc2, hc1]; simp at hmax ⊢; omega)
      refine ⟨max k k2 + 1, r2, w2, m2, Reader.SameCfg.trans ⟨hc1, hc2, hc3, hc4, hc5⟩ hcfg2, hrem2, by omega, ?_, ?_⟩
      · intro hz2
        have h1 := hm2 hz2
        by_cases hz1 : r1.curZ = true
        · exact h1.trans (hm' hz1)
        · exfalso; exact hz1 (hcfg2.2.2.2.2 hz2)
      intro fuel hf
      obtain ⟨f', rfl⟩ : ∃ f', fuel = f' + 1 := ⟨fuel - 1, by omega⟩
      obtain ⟨f2, hf2, heq⟩ := hloop2 f' (by omega)
      refine ⟨f2, by omega, ?_⟩
      rw [hloop f' (by omega), heq, hc1]
      simp
    · -- the delimiter is found
      have h' : l = p ∧ rest = its' := by
        clear hrem hloop hmax
        have := line_prefix_unique (its' := Item.byte r.delim :: its') hp
          (by simpa using h.symm)
        obtain ⟨l', hl', hits⟩ := this
        cases l' with
        | nil => simp at hits hl'; exact ⟨hl', hits.symm⟩
        | cons x l' => simp at hits; rw [hl'] at hl; simp [hits.1] at hl
      obtain ⟨rfl, rfl⟩ := h'
      refine ⟨k + 1, r1, w', m', hcfg, hrem', hlt, hm', ?_⟩
      intro fuel hf
      obtain ⟨f', rfl⟩ : ∃ f', fuel = f' + 1 := ⟨fuel - 1, by omega⟩
      exact ⟨f', by omega, hloop f' (by omega)⟩

/-- The error that ends a tail: the next fault, or the end of the stream. -/
def endErr : List Item → Err
  | .fault e :: _ => e
  | _ => .eof

/-- Reading an unterminated tail that ends with an error or the end of the stream. -/
theorem Reader.loop_tail (w : Nat) : ∀ (r : Reader Z) (acc l : Bytes) (tl : List Item) (m : Nat),
    r.Rem I (l.map Item.byte ++ tl) w m → r.delim ∉ l → 
    (r.maxLine ≤ 0 ∨ ((acc ++ l).length : Int) < r.maxLine) →
    (∀ b tl', tl ≠ .byte b :: tl') →
    ∃ k r' w' m', r.SameCfg r' ∧ r'.Rem I tl.tail w' m' ∧
      ∀ fuel ≥ k, r.readLoop I fuel acc =
        .val ((acc ++ l, some (endErr tl)), r') := by
  induction w using Nat.strongRecOn with
  | ind w ih =>
    intro r acc l tl m hrem hl hmax htl
    have hm : ¬ (r.maxLine > 0 ∧ (acc.length : Int) ≥ r.maxLine) := by
      simp at hmax; omega
    obtain ⟨k, r1, hcfg, hcase⟩ := Reader.loop_step I r _ w m acc hrem hm
    rcases hcase with ⟨h, ⟨w', m', hrem'⟩, hloop⟩ | ⟨e, its', w', m', h, hrem', hloop⟩ |
        ⟨p, its', w', m', h, hp, hrem', hlt, _, hloop⟩ | ⟨p, its', w', m', h, hp, hrem', hlt, _, hloop⟩
    · simp at h
      obtain ⟨rfl, rfl⟩ := h
      refine ⟨k + 1, r1, w', m', hcfg, hrem', ?_⟩
      intro fuel hf
      obtain ⟨f', rfl⟩ : ∃ f', fuel = f' + 1 := ⟨fuel - 1, by omega⟩
      rw [hloop f' (by omega)]; simp [endErr]
    · cases l with
      | cons => simp at h
      | nil =>
        simp at h
        subst h
        refine ⟨k + 1, r1, w', m', hcfg, hrem', ?_⟩
        intro fuel hf
        obtain ⟨f', rfl⟩ : ∃ f', fuel = f' + 1 := ⟨fuel - 1, by omega⟩
        rw [hloop f' (by omega)]; simp [endErr]
    · have hsplit : ∃ l', l = p ++ l' ∧ its' = l'.map Item.byte ++ tl := by
        clear hrem hrem' hloop hmax hl hp
        induction p generalizing l with
        | nil => exact ⟨l, rfl, by simpa using h.symm⟩
        | cons x p ihp =>
          cases l with
          | nil => simp at h; exact absurd h (htl _ _)
          | cons y l =>
            simp at h
            obtain ⟨l', h1, h2⟩ := ihp l h.2
            exact ⟨l', by simp [h1, h.1], h2⟩
      obtain ⟨l', rfl, rfl⟩ := hsplit
      obtain ⟨hc1, hc2, hc3, hc4, hc5⟩ := hcfg
      obtain ⟨k2, r2, w2, m2, hcfg2, hrem2, hloop2⟩ := ih w' hlt r1 (acc ++ p) l' tl m' hrem'
        (by rw [hc1]; simp at hl; exact hl.2) (by rw [hc2]; simp at hmax ⊢; omega) htl
      refine ⟨max k k2 + 1, r2, w2, m2, Reader.SameCfg.trans ⟨hc1, hc2, hc3, hc4, hc5⟩ hcfg2, hrem2, ?_⟩
      intro fuel hf
      obtain ⟨f', rfl⟩ : ∃ f', fuel = f' + 1 := ⟨fuel - 1, by omega⟩
      rw [hloop f' (by omega), hloop2 f' (by omega)]
      simp
    · exfalso
      have : r.delim ∈ l := by
        clear hrem hrem' hloop hmax hl hp ih
        induction p generalizing l with
        | nil =>
          cases l with
          | nil => simp at h; exact absurd h (htl _ _)
          | cons y l => simp at h; simp [h.1]
        | cons x p ihp =>
          cases l with
          | nil => simp at h; exact absurd h (htl _ _)
          | cons y l =>
            simp only [List.cons_append, List.map_cons, List.cons.injEq] at h
            have := ihp l (by simpa using h.2)
            simp [this]
      exact hl this

end Verif.Lineproto
