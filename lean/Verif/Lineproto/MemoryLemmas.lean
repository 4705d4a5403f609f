import Verif.Lineproto.Memory
import Verif.Lineproto.ReaderLemmas

/-!
# The reader with memory does what the reader of values does
-/

namespace Verif.Lineproto.Mem

open Verif.Lineproto

variable {Z : Type} (I : Inflater Z) (W : World)

/-- Two runs end in the same way, with results that are related. -/
def Sim {α : Type u} {β : Type v} (P : α → β → Prop) : Exec α → Exec β → Prop
  | .val a, .val b => P a b
  | .panic, .panic => True
  | .timeout, .timeout => True
  | _, _ => False

theorem Sim.mono {α : Type u} {β : Type v} {P Q : α → β → Prop} {x : Exec α} {y : Exec β} (h : Sim P x y) (hpq : ∀ a b, P a b → Q a b) :
    Sim Q x y := by
  cases x <;> cases y <;> simp_all [Sim]

theorem Sim.cases {α : Type u} {β : Type v} {P : α → β → Prop} {x : Exec α} {y : Exec β} (h : Sim P x y) :
    (x = .panic ∧ y = .panic) ∨ (x = .timeout ∧ y = .timeout) ∨ ∃ a b, x = .val a ∧ y = .val b ∧ P a b := by
  cases x <;> cases y <;> simp_all [Sim]

/-- The memory has changed only in the arrays of the list. -/
def Only (ws : List Nat) (h h' : Heap) : Prop := h'.next = h.next ∧ ∀ a, a ∉ ws → h'.mem a = h.mem a

theorem Only.rfl' {ws : List Nat} {h : Heap} : Only ws h h := ⟨rfl, fun _ _ => rfl⟩

theorem Only.trans {ws : List Nat} {h h1 h2 : Heap} (x : Only ws h h1) (y : Only ws h1 h2) : Only ws h h2 :=
  ⟨y.1.trans x.1, fun a ha => (y.2 a ha).trans (x.2 a ha)⟩

theorem Only.weaken {ws vs : List Nat} {h h1 : Heap} (x : Only ws h h1) (hw : ∀ a ∈ ws, a ∈ vs) : Only vs h h1 :=
  ⟨x.1, fun a ha => x.2 a fun hh => ha (hw a hh)⟩

theorem only_set {h : Heap} {a : Nat} {v : Bytes} : Only [a] h (h.set a v) :=
  ⟨rfl, fun x hx => by simp only [List.mem_singleton] at hx; simp [Heap.set, hx]⟩

@[simp] theorem set_self {h : Heap} {a : Nat} {v : Bytes} : (h.set a v).mem a = v := by simp [Heap.set]

theorem Only.view {ws : List Nat} {h h' : Heap} (x : Only ws h h') {b : MBuf} (hb : b.arr ∉ ws) : b.view h' = b.view h := by
  simp [MBuf.view, x.2 _ hb]

/-- The value of a `bufReader`. -/
def MSrc.abs (h : Heap) (b : MSrc) : Buf := ⟨b.src, b.buf.view h⟩

/-- The array is as long as the buffer. -/
def MBuf.Fits (h : Heap) (b : MBuf) : Prop := b.len ≤ (h.mem b.arr).length

theorem MBuf.Fits.only {ws : List Nat} {h h' : Heap} {b : MBuf} (hf : b.Fits h) (x : Only ws h h') (hb : b.arr ∉ ws) : b.Fits h' := by
  simpa [MBuf.Fits, x.2 _ hb] using hf

theorem fits_empty {h : Heap} {b : MBuf} (hf : b.Fits h) (hv : b.view h = []) : b.len ≤ b.off := by
  unfold MBuf.Fits at hf
  have := congrArg List.length hv
  simp only [MBuf.view, List.length_drop, List.length_take, List.length_nil] at this
  omega

theorem view_advance {h : Heap} {b : MBuf} (n : Nat) : ({ b with off := b.off + n } : MBuf).view h = (b.view h).drop n := by
  simp [MBuf.view, List.drop_drop]

/-- What `fill` does to an exhausted buffer. -/
theorem fill_spec {h : Heap} {b : MBuf} (hf : b.Fits h) (hb : b.view h = []) (d : Bytes) (e : Option Err) :
    ∃ e' b' h', b.fill W h d e = (e', b', h') ∧ b'.arr = b.arr ∧ b'.Fits h' ∧ Only [b.arr] h h' ∧
      ((d = [] ∧ (∃ x, e = some x ∧ e' = some x) ∧ b'.view h' = []) ∨ ((d ≠ [] ∨ e = none) ∧ e' = none ∧ b'.view h' = d)) := by
  have hlen := fits_empty hf hb
  unfold MBuf.fill
  split
  · rename_i x
    refine ⟨_, _, _, rfl, rfl, ?_, only_set, .inl ⟨rfl, ⟨x, rfl, rfl⟩, ?_⟩⟩
    · unfold MBuf.Fits at hf ⊢
      simp [World.scribble]
      omega
    · simp only [MBuf.view, List.drop_eq_nil_iff, List.length_take]
      omega
  · rename_i hne
    refine ⟨_, _, _, rfl, rfl, ?_, only_set, .inr ⟨?_, rfl, ?_⟩⟩
    · simp [MBuf.Fits, World.scribble]
    · cases d with
      | nil => cases e with
        | none => exact .inr rfl
        | some e => exact absurd rfl (hne e rfl)
      | cons c cs => exact .inl (by simp)
    · simp [MBuf.view, World.scribble, List.append_assoc]

theorem peek_spec {h : Heap} {b : MSrc} (hf : b.buf.Fits h) (hb : b.buf.view h = []) :
    ∃ e b' h', b.peek W h = (e, b', h') ∧ (b.abs h).peek = (e, b'.abs h') ∧ b'.buf.arr = b.buf.arr ∧ b'.buf.Fits h' ∧
      Only [b.buf.arr] h h' := by
  unfold MSrc.peek
  rcases hr : b.src.read readBuf with ⟨⟨d, e⟩, s⟩
  obtain ⟨e', b', h', h1, h2, h3, h4, h5⟩ := fill_spec W hf hb d e
  refine ⟨e', ⟨s, b'⟩, h', by simp [h1], ?_, h2, h3, h4⟩
  unfold Buf.peek
  simp only [MSrc.abs, hr, hb]
  rcases h5 with ⟨rfl, ⟨x, rfl, rfl⟩, hv⟩ | ⟨hd, rfl, hv⟩
  · simp [hv]
  · rw [hv]
    split
    · rename_i heq
      simp only [Prod.mk.injEq] at heq
      obtain ⟨⟨rfl, rfl⟩, rfl⟩ := heq
      simp at hd
    · rename_i heq
      simp only [Prod.mk.injEq] at heq
      obtain ⟨⟨rfl, rfl⟩, rfl⟩ := heq
      rfl

/-- The relation between results for a `bufReader`: only its own array is written. -/
def SrcRel {α : Type} (b : MSrc) (h : Heap) (x : α × MSrc × Heap) (y : α × Buf) : Prop :=
  y = (x.1, x.2.1.abs x.2.2) ∧ x.2.1.buf.arr = b.buf.arr ∧ x.2.1.buf.Fits x.2.2 ∧ Only [b.buf.arr] h x.2.2

theorem readByte_sim {h : Heap} {b : MSrc} (hf : b.buf.Fits h) : Sim (SrcRel b h) (b.readByte W h) (b.abs h).readByte := by
  unfold MSrc.readByte Buf.readByte
  cases hv : b.buf.view h with
  | cons c cs =>
    simp only [MSrc.abs, hv]
    refine ⟨?_, rfl, hf, .rfl'⟩
    simp [MSrc.abs, view_advance, hv]
  | nil =>
    obtain ⟨e, b', h', h1, h2, h3, h4, h5⟩ := peek_spec W hf hv
    have e1 : (b.abs h).buf = [] := hv
    simp only [h1, h2, e1]
    cases e with
    | some e => exact ⟨rfl, h3, h4, h5⟩
    | none =>
      simp only
      cases hv' : b'.buf.view h' with
      | cons c cs =>
        simp only [MSrc.abs, hv']
        refine ⟨?_, h3, h4, h5⟩
        simp [MSrc.abs, view_advance, hv']
      | nil => simp [MSrc.abs, hv', Sim]

theorem zByte_sim {n : Nat} {h : Heap} {b : MSrc} (hf : b.buf.Fits h) : Sim (SrcRel b h) (b.zByte W n h) ((b.abs h).zByte n) := by
  unfold MSrc.zByte Buf.zByte
  split
  · rcases (readByte_sim W hf).cases with ⟨h1, h2⟩ | ⟨h1, h2⟩ | ⟨⟨x, b', h'⟩, y, h1, h2, rfl, h3, h4, h5⟩
    · rw [h1, h2]; trivial
    · rw [h1, h2]; trivial
    · rw [h1, h2]
      cases x with
      | inl c => exact ⟨rfl, h3, h4, h5⟩
      | inr e => exact ⟨rfl, h3, h4, h5⟩
  · cases hv : b.buf.view h with
    | cons c cs =>
      simp only [MSrc.abs, hv]
      refine ⟨?_, rfl, hf, .rfl'⟩
      simp [MSrc.abs, view_advance, hv]
    | nil =>
      simp only [MSrc.abs, hv]
      rcases b.src.fetch with ⟨⟨c, e⟩ | e, s⟩
      · exact ⟨by simp [MSrc.abs, hv], rfl, hf, .rfl'⟩
      · exact ⟨by simp [MSrc.abs, hv], rfl, hf, .rfl'⟩

theorem zFill_sim (want : Nat) : ∀ (fuel : Nat) (zr : ZRd Z) (b : MSrc) (h : Heap), b.buf.Fits h →
    Sim (SrcRel b h) (zFill I W want fuel zr b h) (Lineproto.zFill I want fuel zr (b.abs h)) := by
  intro fuel
  induction fuel with
  | zero => intro zr b h _; simp [zFill, Lineproto.zFill, Sim]
  | succ fuel ih =>
    intro zr b h hf
    rw [zFill, Lineproto.zFill]
    split
    · exact ⟨rfl, rfl, hf, .rfl'⟩
    split
    · exact ⟨rfl, rfl, hf, .rfl'⟩
    cases hst : I.status zr.z with
    | done => exact ⟨rfl, rfl, hf, .rfl'⟩
    | failed e => exact ⟨rfl, rfl, hf, .rfl'⟩
    | running =>
      simp only
      rcases (zByte_sim W (n := I.want zr.z) hf).cases with ⟨h1, h2⟩ | ⟨h1, h2⟩ | ⟨⟨x, b', h'⟩, y, h1, h2, rfl, h3, h4, h5⟩
      · rw [h1, h2]; trivial
      · rw [h1, h2]; trivial
      · rw [h1, h2]
        simp only at h3 h4 h5
        have key : ∀ zr', Sim (SrcRel b h) (zFill I W want fuel zr' b' h') (Lineproto.zFill I want fuel zr' (b'.abs h')) := by
          intro zr'
          refine (ih zr' b' h' h4).mono ?_
          rintro a y ⟨k1, k2, k3, k4⟩
          rw [h3] at k2 k4
          exact ⟨k1, k2, k3, h5.trans k4⟩
        cases x with
        | inl c => exact key _
        | inr e => exact key _

/-- The same with two results. -/
def SrcRel2 {α β : Type} (b : MSrc) (h : Heap) (x : α × β × MSrc × Heap) (y : α × β × Buf) : Prop :=
  y = (x.1, x.2.1, x.2.2.1.abs x.2.2.2) ∧ x.2.2.1.buf.arr = b.buf.arr ∧ x.2.2.1.buf.Fits x.2.2.2 ∧ Only [b.buf.arr] h x.2.2.2

theorem zRead_sim (fuel n : Nat) (zr : ZRd Z) {b : MSrc} {h : Heap} (hf : b.buf.Fits h) :
    Sim (SrcRel2 b h) (zRead I W fuel n zr b h) (Lineproto.zRead I fuel n zr (b.abs h)) := by
  unfold zRead Lineproto.zRead
  rcases (zFill_sim I W (max 1 (zr.sched.headD (1, false)).1) fuel zr b h hf).cases with
    ⟨h1, h2⟩ | ⟨h1, h2⟩ | ⟨⟨zr', b', h'⟩, y, h1, h2, rfl, h3, h4, h5⟩
  · rw [h1, h2]; trivial
  · rw [h1, h2]; trivial
  · rw [h1, h2]
    simp only at h3 h4 h5 ⊢
    split
    · exact ⟨rfl, h3, h4, h5⟩
    · exact ⟨rfl, h3, h4, h5⟩

theorem srcRead_sim (n : Nat) {b : MSrc} {h : Heap} (hf : b.buf.Fits h) :
    ∃ res b', b.read n h = (res, b') ∧ (b.abs h).read n = (res, b'.abs h) ∧ b'.buf.arr = b.buf.arr ∧ b'.buf.Fits h := by
  unfold MSrc.read Buf.read
  cases hv : b.buf.view h with
  | nil =>
    simp only [MSrc.abs, hv]
    exact ⟨_, _, rfl, by simp [hv], rfl, hf⟩
  | cons c cs =>
    simp only [MSrc.abs, hv]
    refine ⟨_, _, rfl, ?_, rfl, hf⟩
    simp only [view_advance, hv, Prod.mk.injEq, true_and, Buf.mk.injEq, List.length_take]
    by_cases hn : n ≤ (c :: cs).length
    · rw [Nat.min_eq_left hn]
    · rw [Nat.min_eq_right (by omega), List.drop_eq_nil_of_le (by omega), List.drop_eq_nil_of_le (Nat.le_refl _)]

/-- The value of a reader. -/
def MReader.abs (h : Heap) (r : MReader Z) : Reader Z :=
  { delim := r.delim, maxLine := r.maxLine, orig := r.orig.map (·.abs h), zlibOn := r.zlibOn, curZ := r.curZ, zlib := r.zlib,
    cbuf := match r.comp with | some c => c.view h | none => [], onLine := r.onLine }

/-- The arrays a reader keeps to itself. -/
def MReader.priv (r : MReader Z) : List Nat := (r.orig.toList.map (·.buf.arr)) ++ r.comp.toList.map (·.arr)

/-- The arrays of a reader are in use and different. -/
structure Inv (h : Heap) (r : MReader Z) : Prop where
  orig : ∀ b, r.orig = some b → b.buf.arr < h.next ∧ b.buf.Fits h
  comp : ∀ c, r.comp = some c → c.arr < h.next ∧ c.Fits h ∧ ∀ b, r.orig = some b → c.arr ≠ b.buf.arr
  line : r.orig.isSome = true → r.line.arr < h.next ∧ r.line.arr ∉ r.priv
  zlib : r.zlib.isSome = r.comp.isSome

/-- The relation between results for a reader: only private arrays are written, and which arrays these are does not change. -/
def RRel {α : Type} (r : MReader Z) (h : Heap) (x : α × MReader Z × Heap) (y : α × Reader Z) : Prop :=
  y = (x.1, x.2.1.abs x.2.2) ∧ Inv x.2.2 x.2.1 ∧ Only r.priv h x.2.2 ∧ x.2.1.line = r.line ∧ x.2.1.priv = r.priv ∧
    x.2.1.orig.isSome = true

theorem scanBuf_drop (d : Byte) (v : Bytes) {pref rest : Bytes} {more : Bool} (hs : scanBuf d v = (pref, more, rest)) :
    v.drop pref.length = rest := by
  rcases scanBuf_spec d v with ⟨-, h⟩ | ⟨l, rest', -, rfl, h⟩
  · rw [h] at hs
    obtain ⟨rfl, -, rfl⟩ : v = pref ∧ true = more ∧ [] = rest := by simpa using hs
    simp
  · rw [h] at hs
    obtain ⟨rfl, -, rfl⟩ : l ++ [d] = pref ∧ false = more ∧ rest' = rest := by simpa using hs
    simp

theorem Inv.update {h h' : Heap} {r r' : MReader Z} (hi : Inv h r) (ho : Only r.priv h h') (hl : r'.line = r.line)
    (h1 : r'.orig.map (·.buf.arr) = r.orig.map (·.buf.arr)) (h2 : r'.comp.map (·.arr) = r.comp.map (·.arr))
    (h3 : ∀ b, r'.orig = some b → b.buf.Fits h') (h4 : ∀ c, r'.comp = some c → c.Fits h') (h5 : r'.zlib.isSome = r'.comp.isSome) :
    Inv h' r' ∧ r'.priv = r.priv ∧ r'.orig.isSome = r.orig.isSome := by
  have hp : r'.priv = r.priv := by
    unfold MReader.priv
    have e1 : r'.orig.toList.map (·.buf.arr) = r.orig.toList.map (·.buf.arr) := by
      rw [← Option.toList_map, ← Option.toList_map, h1]
    have e2 : r'.comp.toList.map (·.arr) = r.comp.toList.map (·.arr) := by
      rw [← Option.toList_map, ← Option.toList_map, h2]
    rw [e1, e2]
  have ho' : r'.orig.isSome = r.orig.isSome := by simpa using congrArg Option.isSome h1
  refine ⟨⟨?_, ?_, ?_, h5⟩, hp, ho'⟩
  · intro b hb
    refine ⟨?_, h3 b hb⟩
    rw [hb] at h1
    cases hr : r.orig with
    | none => rw [hr] at h1; cases h1
    | some b0 =>
      rw [hr] at h1
      simp only [Option.map_some, Option.some.injEq] at h1
      rw [h1, ho.1]
      exact (hi.orig b0 hr).1
  · intro c hc
    rw [hc] at h2
    cases hr : r.comp with
    | none => rw [hr] at h2; cases h2
    | some c0 =>
      rw [hr] at h2
      simp only [Option.map_some, Option.some.injEq] at h2
      have := hi.comp c0 hr
      refine ⟨by rw [h2, ho.1]; exact this.1, h4 c hc, ?_⟩
      intro b hb
      rw [hb] at h1
      cases hro : r.orig with
      | none => rw [hro] at h1; cases h1
      | some b0 =>
        rw [hro] at h1
        simp only [Option.map_some, Option.some.injEq] at h1
        rw [h1, h2]
        exact this.2.2 b0 hro
  · intro hs
    rw [hl, hp, ho.1]
    exact hi.line (ho' ▸ hs)

theorem scan_sim (fuel : Nat) {r : MReader Z} {b : MSrc} {h : Heap} (hi : Inv h r) (hb : r.orig = some b) :
    Sim (RRel r h) (r.scan I W fuel b h) ((r.abs h).scan I fuel (b.abs h)) := by
  have hbo := hi.orig b hb
  have hbp : ∀ a ∈ [b.buf.arr], a ∈ r.priv := by simp [MReader.priv, hb]
  unfold MReader.scan Reader.scan
  have e1 : (r.abs h).curZ = r.curZ := rfl
  have e2 : (r.abs h).delim = r.delim := rfl
  rw [e1, e2]
  by_cases hz : r.curZ = true
  · rw [if_pos hz, if_pos hz]
    cases hc : r.comp with
    | none =>
      have e3 : (r.abs h).cbuf = [] := by simp [MReader.abs, hc]
      have e4 : (r.abs h).zlib = none := by
        have := hi.zlib; rw [hc] at this; simpa [MReader.abs] using this
      simp [e3, e4, Sim]
    | some c =>
      have hco := hi.comp c hc
      have hcp : ∀ a ∈ [c.arr], a ∈ r.priv := by simp [MReader.priv, hc]
      have e3 : (r.abs h).cbuf = c.view h := by simp [MReader.abs, hc]
      rw [e3]
      simp only
      cases hv : c.view h with
      | cons x xs =>
        simp only
        rcases hs : scanBuf r.delim (x :: xs) with ⟨pref, more, rest⟩
        have hd := scanBuf_drop _ _ hs
        obtain ⟨u1, u2, u3⟩ := hi.update (h' := h) (r' := { r with comp := some { c with off := c.off + pref.length } }) .rfl' rfl rfl
          (by simp [hc]) (fun b' hb' => (hi.orig b' hb').2) (fun c' hc' => by cases hc'; exact hco.2.1) (by simpa [hc] using hi.zlib)
        refine ⟨?_, u1, .rfl', rfl, u2, by simp [hb]⟩
        simp only [MReader.abs, view_advance, hv, hd]
      | nil =>
        simp only
        cases hzl : r.zlib with
        | none => simp [MReader.abs, hzl, Sim]
        | some zr =>
          have e4 : (r.abs h).zlib = some zr := hzl
          simp only [e4]
          rcases (zRead_sim I W fuel readBuf zr hbo.2).cases with
            ⟨h1, h2⟩ | ⟨h1, h2⟩ | ⟨⟨⟨d, e⟩, zr', b', h1'⟩, y, h1, h2, rfl, h3, h4, h5⟩
          · rw [h1, zPeek, h2]; trivial
          · rw [h1, zPeek, h2]; trivial
          · rw [h1]
            simp only at h3 h4 h5 ⊢
            have hne : c.arr ≠ b.buf.arr := hco.2.2 b hb
            have hcv : c.view h1' = [] := by rw [h5.view (by simpa using hne)]; exact hv
            have hcf : c.Fits h1' := hco.2.1.only h5 (by simpa using hne)
            obtain ⟨e', c', h2', k1, k2, k3, k4, k5⟩ := fill_spec W hcf hcv d e
            have only2 : Only r.priv h h2' := (h5.weaken hbp).trans (k4.weaken hcp)
            have hb'f : b'.buf.Fits h2' := h4.only k4 (by rw [h3]; simpa using hne.symm)
            have hb'v : b'.abs h1' = b'.abs h2' := by
              simp only [MSrc.abs, Buf.mk.injEq, true_and]
              exact (k4.view (by rw [h3]; simpa using hne.symm)).symm
            rw [k1]
            rcases k5 with ⟨rfl, ⟨x, rfl, rfl⟩, hv'⟩ | ⟨hd, rfl, hv'⟩
            · obtain ⟨u1, u2, u3⟩ := hi.update (h' := h2') (r' := { r with zlib := some zr', orig := some b', comp := some c' }) only2 rfl
                (by simp [hb, h3]) (by simp [hc, k2]) (fun b2 hb2 => by cases hb2; exact hb'f) (fun c2 hc2 => by cases hc2; exact k3) (by simp)
              rw [zPeek, h2]
              refine ⟨?_, u1, only2, rfl, u2, rfl⟩
              simp only [MReader.abs, hb'v, hv', hc, hv, Option.map_some]
            · have hm : zPeek I fuel zr (b.abs h) = .val (.inl d, zr', b'.abs h1') := by
                rw [zPeek, h2]
                cases d with
                | nil => cases e with
                  | none => rfl
                  | some e => simp at hd
                | cons c cs => rfl
              rw [hm]
              simp only [hv']
              rcases hs : scanBuf r.delim d with ⟨pref, more, rest⟩
              have hdr := scanBuf_drop _ _ hs
              obtain ⟨u1, u2, u3⟩ := hi.update (h' := h2')
                (r' := { r with zlib := some zr', orig := some b', comp := some { c' with off := c'.off + pref.length } }) only2 rfl
                (by simp [hb, h3]) (by simp [hc, k2]) (fun b2 hb2 => by cases hb2; exact hb'f) (fun c2 hc2 => by cases hc2; exact k3) (by simp)
              refine ⟨?_, u1, only2, rfl, u2, rfl⟩
              simp only [MReader.abs, hb'v, view_advance, hv', hdr, Option.map_some]
  · rw [if_neg hz, if_neg hz]
    unfold Buf.scan
    have e3 : (b.abs h).buf = b.buf.view h := rfl
    rw [e3]
    cases hv : b.buf.view h with
    | cons x xs =>
      simp only
      rcases hs : scanBuf r.delim (x :: xs) with ⟨pref, more, rest⟩
      have hd := scanBuf_drop _ _ hs
      obtain ⟨u1, u2, u3⟩ := hi.update (h' := h) (r' := { r with orig := some { b with buf.off := b.buf.off + pref.length } }) .rfl' rfl
        (by simp [hb]) rfl (fun b' hb' => by cases hb'; exact hbo.2) (fun c' hc' => (hi.comp c' hc').2.1) hi.zlib
      refine ⟨?_, u1, .rfl', rfl, u2, rfl⟩
      simp only [MReader.abs, MSrc.abs, view_advance, hv, hd, Option.map_some]
    | nil =>
      simp only
      obtain ⟨e, b', h', h1, h2, h3, h4, h5⟩ := peek_spec W hbo.2 hv
      rw [h1, h2]
      have only2 : Only r.priv h h' := h5.weaken hbp
      have hcv : (match r.comp with | some c => c.view h' | none => []) = (match r.comp with | some c => c.view h | none => []) := by
        cases hc : r.comp with
        | none => rfl
        | some c => exact h5.view (by simpa using (hi.comp c hc).2.2 b hb)
      have hcf : ∀ c', r.comp = some c' → c'.Fits h' := fun c' hc' =>
        (hi.comp c' hc').2.1.only h5 (by simpa using (hi.comp c' hc').2.2 b hb)
      cases e with
      | some e =>
        obtain ⟨u1, u2, u3⟩ := hi.update (h' := h') (r' := { r with orig := some b' }) only2 rfl
          (by simp [hb, h3]) rfl (fun b2 hb2 => by cases hb2; exact h4) hcf hi.zlib
        refine ⟨?_, u1, only2, rfl, u2, rfl⟩
        simp only [MReader.abs, hcv, Option.map_some]
      | none =>
        simp only
        have e4 : (b'.abs h').buf = b'.buf.view h' := rfl
        rw [e4]
        rcases hs : scanBuf r.delim (b'.buf.view h') with ⟨pref, more, rest⟩
        have hd := scanBuf_drop _ _ hs
        obtain ⟨u1, u2, u3⟩ := hi.update (h' := h') (r' := { r with orig := some { b' with buf.off := b'.buf.off + pref.length } }) only2 rfl
          (by simp [hb, h3]) rfl (fun b2 hb2 => by cases hb2; exact h4) hcf hi.zlib
        refine ⟨?_, u1, only2, rfl, u2, rfl⟩
        simp only [MReader.abs, MSrc.abs, hcv, Option.map_some, view_advance, hd]

/-- Memory in use has changed only in the arrays of the list; there may be more memory. -/
def Grow (ws : List Nat) (h h' : Heap) : Prop := h.next ≤ h'.next ∧ ∀ a < h.next, a ∉ ws → h'.mem a = h.mem a

theorem Only.grow {ws : List Nat} {h h' : Heap} (x : Only ws h h') : Grow ws h h' := ⟨Nat.le_of_eq x.1.symm, fun a _ ha => x.2 a ha⟩

theorem grow_alloc {h : Heap} {v : Bytes} : Grow [] h (h.alloc v).2 ∧ (h.alloc v).1 = h.next ∧ (h.alloc v).2.next = h.next + 1 ∧
    (h.alloc v).2.mem h.next = v := by
  refine ⟨⟨Nat.le_succ _, fun a ha _ => ?_⟩, rfl, rfl, ?_⟩
  · simp only [Heap.alloc]; rw [if_neg (by omega)]
  · simp [Heap.alloc]

theorem append_spec {h : Heap} {s : Slice} (bs : Bytes) (hs : (s.bytes h).length = s.len) :
    ∃ s' h', append W h s bs = (s', h') ∧ s'.bytes h' = s.bytes h ++ bs ∧ (s'.bytes h').length = s'.len ∧
      ((s'.arr = s.arr ∧ Only [s.arr] h h') ∨ (s'.arr = h.next ∧ h'.next = h.next + 1 ∧ Grow [] h h')) := by
  have hlen : s.len ≤ (h.mem s.arr).length := by
    simp only [Slice.bytes, List.length_take] at hs; omega
  unfold append
  split
  · refine ⟨_, _, rfl, ?_, ?_, .inl ⟨rfl, only_set⟩⟩
    · simp only [Slice.bytes, set_self]
      rw [List.take_append_of_le_length (by simp; omega)]
      rw [List.take_of_length_le (by simp; omega)]
    · simp only [Slice.bytes, set_self]
      simp
      omega
  · have hg := grow_alloc (h := h) (v := (h.mem s.arr).take s.len ++ bs)
    refine ⟨_, _, rfl, ?_, ?_, .inr ⟨rfl, rfl, hg.1⟩⟩
    · simp only [Slice.bytes]
      rw [List.take_of_length_le (by simp; omega)]
      simp
    · simp only [Slice.bytes]
      simp
      omega

/-- The bytes of a slice that may be nil. -/
def deref (h : Heap) : Option Slice → Bytes
  | none => []
  | some s => s.bytes h

/-- What a call may do to memory: private arrays and the array of the line are written, new arrays may be added to either. -/
structure Step (r : MReader Z) (h : Heap) (r' : MReader Z) (h' : Heap) : Prop where
  inv : Inv h' r'
  grow : Grow (r.line.arr :: r.priv) h h'
  priv : ∀ a ∈ r'.priv, a ∈ r.priv ∨ h.next ≤ a
  line : r'.orig.isSome = true → r'.line.arr = r.line.arr ∨ h.next ≤ r'.line.arr

theorem Step.trans {r r1 r2 : MReader Z} {h h1 h2 : Heap} (x : Step r h r1 h1) (ho : r1.orig.isSome = true) (y : Step r1 h1 r2 h2) :
    Step r h r2 h2 := by
  have hle := x.grow.1
  refine ⟨y.inv, ⟨Nat.le_trans hle y.grow.1, ?_⟩, ?_, ?_⟩
  · intro a ha hn
    simp only [List.mem_cons, not_or] at hn
    rw [y.grow.2 a (by omega), x.grow.2 a ha (by simp [hn])]
    simp only [List.mem_cons, not_or]
    constructor
    · rcases x.line ho with e | e
      · rw [e]; exact hn.1
      · omega
    · intro hp
      rcases x.priv a hp with e | e
      · exact hn.2 e
      · omega
  · intro a ha
    rcases y.priv a ha with e | e
    · exact x.priv a e
    · right; omega
  · intro hs
    rcases y.line hs with e | e
    · rw [e]; exact x.line ho
    · right; omega

/-- The relation between results of `ReadLine`. -/
def LRel (r : MReader Z) (h : Heap) (x : (Option Slice × Option Err) × MReader Z × Heap) (y : (Bytes × Option Err) × Reader Z) : Prop :=
  y = ((deref x.2.2 x.1.1, x.1.2), x.2.1.abs x.2.2) ∧ Step r h x.2.1 x.2.2 ∧ x.2.1.orig.isSome = true ∧
    ∀ s, x.1.1 = some s → s = x.2.1.line ∧ (s.bytes x.2.2).length = s.len

theorem abs_congr {h h' : Heap} {r : MReader Z} (ho : ∀ a ∈ r.priv, h'.mem a = h.mem a) : r.abs h' = r.abs h := by
  have h1 : r.orig.map (·.abs h') = r.orig.map (·.abs h) := by
    cases hb : r.orig with
    | none => rfl
    | some b => simp [MSrc.abs, MBuf.view, ho b.buf.arr (by simp [MReader.priv, hb])]
  have h2 : (match r.comp with | some c => c.view h' | none => []) = (match r.comp with | some c => c.view h | none => []) := by
    cases hc : r.comp with
    | none => rfl
    | some c => simp [MBuf.view, ho c.arr (by simp [MReader.priv, hc])]
  simp only [MReader.abs, h1, h2]

/-- Another line slice, and memory changed outside the private arrays. -/
theorem Inv.line_change {h h' : Heap} {r : MReader Z} (hi : Inv h r) {line : Slice} (hn : h.next ≤ h'.next)
    (ho : ∀ a ∈ r.priv, h'.mem a = h.mem a) (hl : r.orig.isSome = true → line.arr < h'.next ∧ line.arr ∉ r.priv) :
    Inv h' { r with line } := by
  refine ⟨?_, ?_, hl, hi.zlib⟩
  · intro b hb
    have := hi.orig b hb
    refine ⟨by omega, ?_⟩
    unfold MBuf.Fits
    rw [ho b.buf.arr (by simp [MReader.priv, show r.orig = some b from hb])]
    exact this.2
  · intro c hc
    have := hi.comp c hc
    refine ⟨by omega, ?_, this.2.2⟩
    unfold MBuf.Fits
    rw [ho c.arr (by simp [MReader.priv, show r.comp = some c from hc])]
    exact this.2.1

theorem priv_lt {h : Heap} {r : MReader Z} (hi : Inv h r) {a : Nat} (ha : a ∈ r.priv) : a < h.next := by
  simp only [MReader.priv, List.mem_append, List.mem_map, Option.mem_toList] at ha
  rcases ha with ⟨b, hb, rfl⟩ | ⟨c, hc, rfl⟩
  · exact (hi.orig b hb).1
  · exact (hi.comp c hc).1

theorem readLoop_sim : ∀ (fuel : Nat) (r : MReader Z) (h : Heap), Inv h r → r.orig.isSome = true → (r.line.bytes h).length = r.line.len →
    Sim (LRel r h) (r.readLoop I W fuel h) ((r.abs h).readLoop I fuel (r.line.bytes h)) := by
  intro fuel
  induction fuel with
  | zero => intro r h _ _ _; simp [MReader.readLoop, Reader.readLoop, Sim]
  | succ fuel ih =>
    intro r h hi ho hl
    rw [MReader.readLoop, Reader.readLoop]
    cases hb : r.orig with
    | none => rw [hb] at ho; cases ho
    | some b =>
      have e1 : (r.abs h).orig = some (b.abs h) := by simp [MReader.abs, hb]
      have e2 : (r.abs h).maxLine = r.maxLine := rfl
      rw [e1, e2, hl]
      simp only
      have self : Step r h r h := ⟨hi, Only.rfl'.grow, fun a ha => .inl ha, fun _ => .inl rfl⟩
      split
      · exact ⟨rfl, self, ho, fun s hs => by cases hs⟩
      rcases (scan_sim I W fuel hi hb).cases with ⟨h1, h2⟩ | ⟨h1, h2⟩ | ⟨⟨⟨pref, more, err⟩, r1, h1'⟩, y, h1, h2, rfl, hi1, ho1, hl1, hp1, hs1⟩
      · rw [h1, h2]; trivial
      · rw [h1, h2]; trivial
      · rw [h1, h2]
        simp only at hi1 ho1 hl1 hp1 hs1 ⊢
        have hline := hi.line ho
        have step1 : Step r h r1 h1' := by
          refine ⟨hi1, ?_, fun a ha => .inl (hp1 ▸ ha), fun _ => .inl (by rw [hl1])⟩
          exact (ho1.weaken (fun a ha => List.mem_cons_of_mem _ ha)).grow
        have hlb : r1.line.bytes h1' = r.line.bytes h := by
          rw [hl1]; simp only [Slice.bytes]; rw [ho1.2 _ hline.2]
        have e3 : (r1.abs h1').zlibOn = r1.zlibOn := rfl
        rw [e3]
        split
        · have hi2 : Inv h1' { r1 with curZ := false, zlibOn := false } := ⟨hi1.orig, hi1.comp, hi1.line, hi1.zlib⟩
          have step2 : Step r h { r1 with curZ := false, zlibOn := false } h1' := ⟨hi2, step1.grow, step1.priv, step1.line⟩
          have := ih { r1 with curZ := false, zlibOn := false } h1' hi2 hs1 (by simp only; rw [hlb, hl, hl1])
          simp only [hlb] at this
          refine this.mono ?_
          rintro x y ⟨k1, k2, k3, k4⟩
          exact ⟨k1, step2.trans hs1 k2, k3, k4⟩
        · obtain ⟨line, h2', k1, k2, k3, k4⟩ := append_spec W (h := h1') (s := r1.line) pref (by rw [hlb, hl, hl1])
          rw [k1]
          simp only
          have hline1 := hi1.line hs1
          have hpriv : ∀ a ∈ r1.priv, h2'.mem a = h1'.mem a := by
            intro a ha
            rcases k4 with ⟨-, e⟩ | ⟨-, -, e⟩
            · refine e.2 a ?_
              simp only [List.mem_singleton]
              rintro rfl
              exact hline1.2 ha
            · exact e.2 a (priv_lt hi1 ha) (by simp)
          have hnext : h1'.next ≤ h2'.next := by
            rcases k4 with ⟨-, e⟩ | ⟨-, e, -⟩
            · exact Nat.le_of_eq e.1.symm
            · omega
          have habs : r1.abs h2' = r1.abs h1' := abs_congr hpriv
          have hnewline : line.arr < h2'.next ∧ line.arr ∉ r1.priv := by
            rcases k4 with ⟨e, e'⟩ | ⟨e, e', -⟩
            · rw [e, e'.1]; exact hline1
            · rw [e, e']
              exact ⟨by omega, fun hm => by have := priv_lt hi1 hm; omega⟩
          have hi2 : ∀ n, Inv h2' { r1 with line := { line with len := n } } := fun n =>
            hi1.line_change hnext hpriv (fun _ => hnewline)
          have stepn : ∀ n, Step r h { r1 with line := { line with len := n } } h2' := by
            intro n
            refine step1.trans hs1 ⟨hi2 n, ⟨hnext, ?_⟩, fun a ha => .inl ha, ?_⟩
            · intro a ha hn
              rcases k4 with ⟨-, e⟩ | ⟨-, -, e⟩
              · exact e.2 a (by simp_all)
              · exact e.2 a ha (by simp)
            · intro _
              rcases k4 with ⟨e, -⟩ | ⟨e, -, -⟩
              · exact .inl e
              · exact .inr (Nat.le_of_eq e.symm)
          have hlb2 : line.bytes h2' = r.line.bytes h ++ pref := by rw [k2, hlb]
          have habs2 : ∀ n, ({ r1 with line := { line with len := n } } : MReader Z).abs h2' = r1.abs h1' := fun n => by
            rw [← habs]; rfl
          have e4 : (r1.abs h1').onLine = r1.onLine := rfl
          cases err with
          | some e =>
            refine ⟨?_, stepn line.len, hs1, fun s hs => ?_⟩
            · simp only [deref, hlb2, ← habs2 line.len]
            · cases hs; exact ⟨rfl, k3⟩
          | none =>
            simp only
            split
            · have := ih { r1 with line } h2' (hi2 line.len) hs1 k3
              rw [show ({ r1 with line } : MReader Z).abs h2' = r1.abs h1' from habs2 line.len] at this
              simp only [hlb2] at this
              refine this.mono ?_
              rintro x y ⟨m1, m2, m3, m4⟩
              exact ⟨m1, (stepn line.len).trans hs1 m2, m3, m4⟩
            · rw [hlb2, e4]
              cases hh : runHooks (r.line.bytes h ++ pref) r1.onLine with
              | accept =>
                refine ⟨?_, stepn line.len, hs1, fun s hs => ?_⟩
                · simp only [deref, hlb2, ← habs2 line.len]
                · cases hs; exact ⟨rfl, k3⟩
              | drop =>
                simp only
                have hz : ({ line with len := 0 } : Slice).bytes h2' = [] := by simp [Slice.bytes]
                have := ih { r1 with line := { line with len := 0 } } h2' (hi2 0) hs1 (by simp only [hz]; rfl)
                rw [habs2 0] at this
                simp only [hz] at this
                refine this.mono ?_
                rintro x y ⟨m1, m2, m3, m4⟩
                exact ⟨m1, (stepn 0).trans hs1 m2, m3, m4⟩
              | fail e =>
                refine ⟨?_, stepn line.len, hs1, fun s hs => by cases hs⟩
                simp only [deref, ← habs2 line.len]

theorem readLine_sim (fuel : Nat) {r : MReader Z} {h : Heap} (hi : Inv h r) (ho : r.orig.isSome = true) :
    Sim (LRel r h) (r.readLine I W fuel h) ((r.abs h).readLine I fuel) := by
  unfold MReader.readLine Reader.readLine
  split
  · next hb => rw [hb] at ho; cases ho
  · next b hb =>
    have e1 : (r.abs h).orig = some (b.abs h) := by simp [MReader.abs, hb]
    rw [e1]
    have hi' : Inv h { r with line.len := 0 } := ⟨hi.orig, hi.comp, hi.line, hi.zlib⟩
    have hz : ({ r with line.len := 0 } : MReader Z).line.bytes h = [] := by simp [Slice.bytes]
    have := readLoop_sim I W fuel { r with line.len := 0 } h hi' ho (by rw [hz]; rfl)
    rw [hz] at this
    refine this.mono ?_
    rintro x y ⟨k1, k2, k3, k4⟩
    exact ⟨k1, ⟨k2.inv, k2.grow, k2.priv, k2.line⟩, k3, k4⟩

theorem curRead_sim (fuel n : Nat) {r : MReader Z} {b : MSrc} {h : Heap} (hi : Inv h r) (hb : r.orig = some b) :
    Sim (RRel r h) (r.curRead I W fuel n b h) ((r.abs h).curRead I fuel n (b.abs h)) := by
  have hbo := hi.orig b hb
  have hbp : ∀ a ∈ [b.buf.arr], a ∈ r.priv := by simp [MReader.priv, hb]
  unfold MReader.curRead Reader.curRead
  have e1 : (r.abs h).curZ = r.curZ := rfl
  rw [e1]
  by_cases hz : r.curZ = true
  · rw [if_pos hz, if_pos hz]
    cases hc : r.comp with
    | none =>
      have e3 : (r.abs h).cbuf = [] := by simp [MReader.abs, hc]
      have e4 : (r.abs h).zlib = none := by
        have := hi.zlib; rw [hc] at this; simpa [MReader.abs] using this
      simp [e3, e4, Sim]
    | some c =>
      have hco := hi.comp c hc
      have e3 : (r.abs h).cbuf = c.view h := by simp [MReader.abs, hc]
      rw [e3]
      simp only
      cases hv : c.view h with
      | cons x xs =>
        simp only
        obtain ⟨u1, u2, u3⟩ := hi.update (h' := h) (r' := { r with comp := some { c with off := c.off + ((x :: xs).take n).length } }) .rfl' rfl rfl
          (by simp [hc]) (fun b' hb' => (hi.orig b' hb').2) (fun c' hc' => by cases hc'; exact hco.2.1) (by simpa [hc] using hi.zlib)
        refine ⟨?_, u1, .rfl', rfl, u2, by simp [hb]⟩
        have : (x :: xs).drop ((x :: xs).take n).length = (x :: xs).drop n := by
          rw [List.length_take]
          by_cases hn : n ≤ (x :: xs).length
          · rw [Nat.min_eq_left hn]
          · rw [Nat.min_eq_right (by omega), List.drop_eq_nil_of_le (as := x :: xs) (i := n) (by omega), List.drop_eq_nil_of_le (Nat.le_refl _)]
        simp only [MReader.abs, view_advance, hv, this]
      | nil =>
        simp only
        cases hzl : r.zlib with
        | none => simp [MReader.abs, hzl, Sim]
        | some zr =>
          have e4 : (r.abs h).zlib = some zr := hzl
          simp only [e4]
          rcases (zRead_sim I W fuel n zr hbo.2).cases with
            ⟨h1, h2⟩ | ⟨h1, h2⟩ | ⟨⟨res, zr', b', h1'⟩, y, h1, h2, rfl, h3, h4, h5⟩
          · rw [h1, h2]; trivial
          · rw [h1, h2]; trivial
          · rw [h1, h2]
            simp only at h3 h4 h5 ⊢
            have hne : c.arr ≠ b.buf.arr := hco.2.2 b hb
            have hcv : c.view h1' = c.view h := h5.view (by simpa using hne)
            have hcf : c.Fits h1' := hco.2.1.only h5 (by simpa using hne)
            have only2 : Only r.priv h h1' := h5.weaken hbp
            obtain ⟨u1, u2, u3⟩ := hi.update (h' := h1') (r' := { r with zlib := some zr', orig := some b', comp := some c }) only2 rfl
              (by simp [hb, h3]) (by simp [hc]) (fun b2 hb2 => by cases hb2; exact h4) (fun c2 hc2 => by cases hc2; exact hcf) (by simp)
            refine ⟨?_, u1, only2, rfl, u2, rfl⟩
            simp only [MReader.abs, hc, hcv, hv, Option.map_some]
  · rw [if_neg hz, if_neg hz]
    obtain ⟨res, b', h1, h2, h3, h4⟩ := srcRead_sim n hbo.2
    rw [h1, h2]
    obtain ⟨u1, u2, u3⟩ := hi.update (h' := h) (r' := { r with orig := some b' }) .rfl' rfl
      (by simp [hb, h3]) rfl (fun b2 hb2 => by cases hb2; exact h4) (fun c' hc' => (hi.comp c' hc').2.1) hi.zlib
    refine ⟨?_, u1, .rfl', rfl, u2, rfl⟩
    simp only [MReader.abs, Option.map_some]

theorem readBytes_sim (fuel n : Nat) {r : MReader Z} {h : Heap} (hi : Inv h r) (ho : r.orig.isSome = true) :
    Sim (RRel r h) (r.readBytes I W fuel n h) ((r.abs h).read I fuel n) := by
  unfold MReader.readBytes Reader.read
  cases hb : r.orig with
  | none => rw [hb] at ho; cases ho
  | some b =>
    have e1 : (r.abs h).orig = some (b.abs h) := by simp [MReader.abs, hb]
    rw [e1]
    simp only
    rcases (curRead_sim I W fuel n hi hb).cases with ⟨h1, h2⟩ | ⟨h1, h2⟩ | ⟨⟨⟨d, err⟩, r1, h1'⟩, y, h1, h2, rfl, hi1, ho1, hl1, hp1, hs1⟩
    · rw [h1, h2]; trivial
    · rw [h1, h2]; trivial
    · rw [h1, h2]
      simp only at hi1 ho1 hl1 hp1 hs1 ⊢
      have e3 : (r1.abs h1').zlibOn = r1.zlibOn := rfl
      rw [e3]
      have hi2 : Inv h1' { r1 with curZ := false, zlibOn := false } := ⟨hi1.orig, hi1.comp, hi1.line, hi1.zlib⟩
      split
      · split
        · exact ⟨rfl, hi2, ho1, hl1, hp1, hs1⟩
        · cases hb1 : r1.orig with
          | none => rw [hb1] at hs1; cases hs1
          | some b1 =>
            have e4 : (r1.abs h1').orig = some (b1.abs h1') := by simp [MReader.abs, hb1]
            simp only [e4]
            obtain ⟨res, b2, k1, k2, k3, k4⟩ := srcRead_sim n (hi1.orig b1 hb1).2
            rw [k1, k2]
            obtain ⟨u1, u2, u3⟩ := hi2.update (h' := h1') (r' := { r1 with curZ := false, zlibOn := false, orig := some b2 }) .rfl' rfl
              (by simp [hb1, k3]) rfl (fun b3 hb3 => by cases hb3; exact k4) (fun c' hc' => (hi1.comp c' hc').2.1) hi1.zlib
            exact ⟨rfl, u1, ho1, hl1, by rw [u2]; exact hp1, rfl⟩
      · exact ⟨rfl, hi1, ho1, hl1, hp1, hs1⟩

theorem readFull_sim {h : Heap} : ∀ (fuel n : Nat) (acc : Bytes) (b : MSrc), b.buf.Fits h →
    Sim (fun x y => y = (x.1, x.2.abs h) ∧ x.2.buf.arr = b.buf.arr ∧ x.2.buf.Fits h) (b.readFull h fuel n acc) ((b.abs h).readFull fuel n acc) := by
  intro fuel
  induction fuel with
  | zero =>
    intro n acc b hf
    cases n with
    | zero => exact ⟨rfl, rfl, hf⟩
    | succ n => trivial
  | succ fuel ih =>
    intro n acc b hf
    cases n with
    | zero => exact ⟨rfl, rfl, hf⟩
    | succ n =>
      rw [MSrc.readFull, Buf.readFull]
      obtain ⟨⟨d, e⟩, b', h1, h2, h3, h4⟩ := srcRead_sim (n + 1) hf
      rw [h1, h2]
      simp only
      split
      · exact ⟨rfl, h3, h4⟩
      · cases e with
        | some e => exact ⟨rfl, h3, h4⟩
        | none =>
          refine (ih _ _ b' h4).mono ?_
          rintro x y ⟨k1, k2, k3⟩
          exact ⟨k1, k2.trans h3, k3⟩

/-- What a call other than `ReadLine` may do: only private arrays are written, and the line stays. -/
structure Quiet (r : MReader Z) (h : Heap) (r' : MReader Z) (h' : Heap) : Prop where
  inv : Inv h' r'
  grow : Grow r.priv h h'
  priv : ∀ a ∈ r'.priv, a ∈ r.priv ∨ h.next ≤ a
  line : r'.line = r.line
  opened : r'.orig.isSome = r.orig.isSome

theorem Quiet.step {r r' : MReader Z} {h h' : Heap} (q : Quiet r h r' h') : Step r h r' h' :=
  ⟨q.inv, ⟨q.grow.1, fun a ha hn => q.grow.2 a ha (by simp_all)⟩, q.priv, fun _ => .inl (by rw [q.line])⟩

theorem Quiet.self {r : MReader Z} {h : Heap} (hi : Inv h r) : Quiet r h r h :=
  ⟨hi, Only.rfl'.grow, fun _ ha => .inl ha, rfl, rfl⟩

theorem Quiet.trans {r r1 r2 : MReader Z} {h h1 h2 : Heap} (x : Quiet r h r1 h1) (y : Quiet r1 h1 r2 h2) : Quiet r h r2 h2 := by
  have hle := x.grow.1
  refine ⟨y.inv, ⟨Nat.le_trans hle y.grow.1, ?_⟩, ?_, y.line.trans x.line, y.opened.trans x.opened⟩
  · intro a ha hn
    rw [y.grow.2 a (by omega), x.grow.2 a ha hn]
    intro hp
    rcases x.priv a hp with e | e
    · exact hn e
    · omega
  · intro a ha
    rcases y.priv a ha with e | e
    · exact x.priv a e
    · right; omega

theorem enableZlib_sim (fuel : Nat) (sched : List (Nat × Bool)) {r : MReader Z} {h : Heap} (hi : Inv h r) :
    Sim (fun x y => y = (x.1, x.2.1.abs x.2.2) ∧ Quiet r h x.2.1 x.2.2) (r.enableZlib I fuel sched h) ((r.abs h).enableZlib I fuel sched) := by
  unfold MReader.enableZlib Reader.enableZlib
  cases hb : r.orig with
  | none =>
    have e1 : (r.abs h).orig = none := by simp [MReader.abs, hb]
    rw [e1]
    exact ⟨rfl, .self hi⟩
  | some b =>
    have hbo := hi.orig b hb
    have e1 : (r.abs h).orig = some (b.abs h) := by simp [MReader.abs, hb]
    have e2 : (r.abs h).zlibOn = r.zlibOn := rfl
    rw [e1, e2]
    simp only
    split
    · exact ⟨rfl, .self hi⟩
    rcases (readFull_sim fuel 2 [] b hbo.2).cases with ⟨h1, h2⟩ | ⟨h1, h2⟩ | ⟨⟨⟨hd, e⟩, b'⟩, y, h1, h2, rfl, h3, h4⟩
    · rw [h1, h2]; trivial
    · rw [h1, h2]; trivial
    · rw [h1, h2]
      simp only at h3 h4 ⊢
      obtain ⟨u1, u2, u3⟩ := hi.update (h' := h) (r' := { r with zlibOn := true, orig := some b' }) .rfl' rfl
        (by simp [hb, h3]) rfl (fun b3 hb3 => by cases hb3; exact h4) (fun c' hc' => (hi.comp c' hc').2.1) hi.zlib
      have fail : Quiet r h { r with zlibOn := true, orig := some b' } h :=
        ⟨u1, Only.rfl'.grow, fun a ha => .inl (u2 ▸ ha), rfl, u3⟩
      cases e with
      | some e => exact ⟨by simp only [MReader.abs, Option.map_some], fail⟩
      | none =>
        simp only
        match hd with
        | [] | [_] | _ :: _ :: _ :: _ => trivial
        | [x1, x2] =>
          simp only
          cases I.header x1 x2 with
          | error e => exact ⟨by simp only [MReader.abs, Option.map_some], fail⟩
          | ok z =>
            simp only
            cases hc : r.comp with
            | some c =>
              have hco := hi.comp c hc
              obtain ⟨u1, u2, u3⟩ := hi.update (h' := h) (r' := { r with zlibOn := true, orig := some b', curZ := true, comp := some { c with len := 0, off := 0 }, zlib := some ⟨z, [], none, sched⟩ }) .rfl' rfl
                (by simp [hb, h3]) (by simp [hc]) (fun b3 hb3 => by cases hb3; exact h4)
                (fun c' hc' => by cases hc'; simp [MBuf.Fits]) (by simp)
              refine ⟨?_, u1, Only.rfl'.grow, fun a ha => .inl (u2 ▸ ha), rfl, u3⟩
              simp [MReader.abs, MBuf.view]
            | none =>
              have hg := grow_alloc (h := h) (v := List.replicate readBuf 0)
              simp only [hg.2.1]
              have hmem : ∀ a, a < h.next → (h.alloc (List.replicate readBuf 0)).2.mem a = h.mem a := fun a ha => hg.1.2 a ha (by simp)
              have hbv : b'.abs (h.alloc (List.replicate readBuf 0)).2 = b'.abs h := by
                simp only [MSrc.abs, MBuf.view]; rw [hmem _ (by omega)]
              refine ⟨?_, ⟨?_, ?_, ?_, by simp⟩, ⟨hg.1.1, fun a ha _ => hmem a ha⟩, ?_, rfl, by simp [hb]⟩
              · simp only [MReader.abs, Option.map_some, hbv]
                simp [MBuf.view]
              · intro b2 hb2
                cases hb2
                refine ⟨by rw [hg.2.2.1]; omega, ?_⟩
                unfold MBuf.Fits; rw [hmem _ (by omega)]; exact h4
              · intro c hc
                cases hc
                refine ⟨by rw [hg.2.2.1]; simp only; omega, by simp [MBuf.Fits], ?_⟩
                intro b2 hb2
                cases hb2
                simp only
                omega
              · intro _
                have hl := hi.line (by simp [hb])
                refine ⟨by rw [hg.2.2.1]; simp only; omega, ?_⟩
                have : r.line.arr ∉ [b.buf.arr] := by simpa [MReader.priv, hb, hc] using hl.2
                simp only [MReader.priv, Option.toList_some, List.map_cons, List.map_nil, List.mem_append, List.mem_singleton] at this ⊢
                omega
              · intro a ha
                simp only [MReader.priv, Option.toList_some, List.map_cons, List.map_nil, List.mem_append, List.mem_singleton, hb, hc] at ha ⊢
                rcases ha with ha | ha
                · left; left; omega
                · right; omega

theorem RRel.quiet {α : Type} {r : MReader Z} {h : Heap} {x : α × MReader Z × Heap} {y : α × Reader Z} (hr : RRel r h x y)
    (ho : r.orig.isSome = true) : y = (x.1, x.2.1.abs x.2.2) ∧ Quiet r h x.2.1 x.2.2 := by
  obtain ⟨h1, h2, h3, h4, h5, h6⟩ := hr
  exact ⟨h1, h2, h3.grow, fun a ha => .inl (h5 ▸ ha), h4, by rw [h6, ho]⟩

theorem readBytes_quiet (fuel n : Nat) {r : MReader Z} {h : Heap} (hi : Inv h r) :
    Sim (fun x y => y = (x.1, x.2.1.abs x.2.2) ∧ Quiet r h x.2.1 x.2.2) (r.readBytes I W fuel n h) ((r.abs h).read I fuel n) := by
  cases ho : r.orig with
  | none =>
    have e1 : (r.abs h).orig = none := by simp [MReader.abs, ho]
    unfold MReader.readBytes Reader.read
    rw [ho, e1]
    exact ⟨rfl, .self hi⟩
  | some b =>
    refine (readBytes_sim I W fuel n hi (by simp [ho])).mono ?_
    intro x y hr
    exact hr.quiet (by simp [ho])

theorem binRead_sim (fuel n left : Nat) {r : MReader Z} {h : Heap} (hi : Inv h r) :
    Sim (fun x y => y = (x.1, x.2.1, x.2.2.1.abs x.2.2.2) ∧ Quiet r h x.2.2.1 x.2.2.2) (r.binRead I W fuel n left h)
      ((r.abs h).binRead I fuel n left) := by
  unfold MReader.binRead Reader.binRead
  split
  · exact ⟨rfl, .self hi⟩
  · rcases (readBytes_quiet I W fuel (min n left) hi).cases with ⟨h1, h2⟩ | ⟨h1, h2⟩ | ⟨⟨⟨d, e⟩, r', h'⟩, y, h1, h2, rfl, h3⟩
    · rw [h1, h2]; trivial
    · rw [h1, h2]; trivial
    · rw [h1, h2]
      exact ⟨rfl, h3⟩

theorem binClose_sim : ∀ (fuel left : Nat) (r : MReader Z) (h : Heap), Inv h r →
    Sim (fun x y => y = (x.1, x.2.1.abs x.2.2) ∧ Quiet r h x.2.1 x.2.2) (r.binClose I W fuel left h) ((r.abs h).binClose I fuel left) := by
  intro fuel
  induction fuel with
  | zero => intro left r h _; trivial
  | succ fuel ih =>
    intro left r h hi
    rw [MReader.binClose, Reader.binClose]
    rcases (binRead_sim I W fuel 8192 left hi).cases with ⟨h1, h2⟩ | ⟨h1, h2⟩ | ⟨⟨⟨d, e⟩, l, r', h'⟩, y, h1, h2, rfl, h3⟩
    · rw [h1, h2]; trivial
    · rw [h1, h2]; trivial
    · rw [h1, h2]
      cases e with
      | some e => exact ⟨rfl, h3⟩
      | none =>
        refine (ih l r' h' h3.inv).mono ?_
        rintro x y ⟨k1, k2⟩
        exact ⟨k1, h3.trans k2⟩

end Verif.Lineproto.Mem
