import Verif.Props.LineReader
import Verif.Props.LineWriter

/-!
# What one side writes the other side reads (C11)
-/

namespace Verif.Props.LineDuplex

open Verif.Lineproto Verif.Spec Verif.Props.LineReader Verif.Props.LineWriter

variable {D : Type} (C : Deflater D) {Z : Type} (I : Inflater Z)

/-- A part of a conversation: some plain lines, then compressed lines. -/
structure Part where
  plain : List Bytes
  zlib : List Bytes

/-- The sections of a conversation that ends with the plain lines `final`. -/
def segsOf : List Part → List Bytes → List Seg
  | [], final => [.plain final.flatten]
  | p :: ps, final => .plain p.plain.flatten :: .zlib p.zlib.flatten :: segsOf ps final

/-- What the reading side does: one `ReadLine` per line, `EnableZlib` where a compressed part begins. -/
def readOps (sched : List (Nat × Bool)) : List Part → List Bytes → List Op
  | [], final => final.map fun _ => .line
  | p :: ps, final =>
    (p.plain.map fun _ => .line) ++ .zlib sched :: (p.zlib.map fun _ => .line) ++ readOps sched ps final

/-- What it must see: the same lines in the same order. -/
def readObs (sched : List (Nat × Bool)) : List Part → List Bytes → List Obs
  | [], final => final.map fun l => .line (l, none)
  | p :: ps, final =>
    (p.plain.map fun l => .line (l, none)) ++ .zlib sched :: (p.zlib.map fun l => .line (l, none)) ++
      readObs sched ps final

/-- All lines are proper lines within the limit, and every compressed part is announced by at least
one plain line. -/
def Proper (delim : Byte) (max : Int) (ps : List Part) (final : List Bytes) : Prop :=
  (∀ p ∈ ps, p.plain ≠ [] ∧ ∀ l ∈ p.plain ++ p.zlib, IsLine delim l ∧ (max ≤ 0 ∨ (l.length : Int) ≤ max)) ∧
    ∀ l ∈ final, IsLine delim l ∧ (max ≤ 0 ∨ (l.length : Int) ≤ max)

/-- The specification machine of the reader allows `ops` on `w`, and every run of it shows `os`. -/
def Reads (delim : Byte) (max : Int) (w : Wire) (ops : List Op) (os : List Obs) : Prop :=
  ∃ ws, Session I delim max w ops ws ∧ ∀ os', AllShow delim ws ops os' → os' = os

theorem isLine_unique {d : Byte} {l l' r r' : Bytes} (h : IsLine d l) (h' : IsLine d l') (e : l ++ r = l' ++ r') :
    l = l' := by
  obtain ⟨b, hb, rfl⟩ := h
  obtain ⟨b', hb', rfl⟩ := h'
  simp only [List.append_assoc, List.singleton_append] at e
  have : b = b' := by
    induction b generalizing b' with
    | nil =>
      cases b' with
      | nil => rfl
      | cons x b' => simp at e hb'; exact absurd e.1 hb'.1
    | cons x b ih =>
      cases b' with
      | nil => simp at e hb; exact absurd e.1.symm hb.1
      | cons y b' =>
        simp at e hb hb'
        rw [e.1, ih hb.2 b' hb'.2 e.2]
  rw [this]

theorem isLine_not_tail {d : Byte} {l r : Bytes} (h : IsLine d l) : d ∈ l ++ r := by
  obtain ⟨b, hb, rfl⟩ := h; simp

theorem Reads.line {delim : Byte} {max : Int} {w : Wire} {l rest : Bytes} {ops os}
    (h : w.inner ++ w.outer = l ++ rest) (hl : IsLine delim l) (hm : max ≤ 0 ∨ (l.length : Int) ≤ max)
    (t : Reads I delim max (w.drop l.length) ops os) : Reads I delim max w (.line :: ops) (.line (l, none) :: os) := by
  obtain ⟨ws, hs, hos⟩ := t
  refine ⟨w :: ws, .cons _ _ _ _ _ (.line w l rest h hl hm) hs, ?_⟩
  intro os' ha
  cases os' with
  | nil => simp [AllShow] at ha
  | cons o os' =>
    obtain ⟨h1, h2⟩ := ha
    rw [hos os' h2]
    congr 1
    cases h1 with
    | line l' rest' h' hl' => rw [isLine_unique hl' hl (h'.symm.trans h)]
    | tail h' => rw [h] at h'; exact absurd (isLine_not_tail hl) h'

theorem Reads.zlib {delim : Byte} {max : Int} {b s d rest : Bytes} {ops os} (sched)
    (h : b = s ++ rest) (hs : IsStream I s d)
    (t : Reads I delim max ⟨true, d, rest⟩ ops os) :
    Reads I delim max ⟨false, [], b⟩ (.zlib sched :: ops) (.zlib sched :: os) := by
  obtain ⟨h1, h2, z, body, rfl, hh, hinf⟩ := hs
  obtain ⟨ws, hse, hos⟩ := t
  refine ⟨⟨false, [], b⟩ :: ws, .cons _ _ _ _ _ (.zlib ⟨false, [], b⟩ sched h1 h2 z body d rest rfl rfl (by simp [h]) hh hinf) hse, ?_⟩
  intro os' ha
  cases os' with
  | nil => simp [AllShow] at ha
  | cons o os' =>
    obtain ⟨g1, g2⟩ := ha
    rw [hos os' g2]
    cases g1; rfl

theorem reads_inner {delim : Byte} {max : Int} {o : Bytes} {ops os} (ls : List Bytes)
    (hl : ∀ l ∈ ls, IsLine delim l ∧ (max ≤ 0 ∨ (l.length : Int) ≤ max))
    (t : Reads I delim max ⟨true, [], o⟩ ops os) :
    Reads I delim max ⟨true, ls.flatten, o⟩ ((ls.map fun _ => .line) ++ ops) ((ls.map fun l => .line (l, none)) ++ os) := by
  induction ls with
  | nil => simpa using t
  | cons l ls ih =>
    have h := hl l (by simp)
    refine Reads.line I (rest := ls.flatten ++ o) (by simp) h.1 h.2 ?_
    have : (⟨true, (l :: ls).flatten, o⟩ : Wire).drop l.length = ⟨true, ls.flatten, o⟩ := by
      simp [Wire.drop]
    rw [this]
    exact ih fun l hl' => hl l (by simp [hl'])

theorem reads_outer {delim : Byte} {max : Int} {o : Bytes} {ops os} (z : Bool) (ls : List Bytes)
    (hl : ∀ l ∈ ls, IsLine delim l ∧ (max ≤ 0 ∨ (l.length : Int) ≤ max))
    (t : Reads I delim max ⟨if ls = [] then z else false, [], o⟩ ops os) :
    Reads I delim max ⟨z, [], ls.flatten ++ o⟩ ((ls.map fun _ => .line) ++ ops) ((ls.map fun l => .line (l, none)) ++ os) := by
  induction ls generalizing z with
  | nil => simpa using t
  | cons l ls ih =>
    have h := hl l (by simp)
    refine Reads.line I (rest := ls.flatten ++ o) (by simp) h.1 h.2 ?_
    have : (⟨z, [], (l :: ls).flatten ++ o⟩ : Wire).drop l.length = ⟨false, [], ls.flatten ++ o⟩ := by
      obtain ⟨b, _, rfl⟩ := h.1
      simp [Wire.drop]
    rw [this]
    exact ih false (fun l hl' => hl l (by simp [hl'])) (by simpa using t)

theorem reads_end {delim : Byte} {max : Int} (z : Bool) :
    Reads I delim max ⟨z, [], []⟩ [.line] [.line ([], some .eof)] := by
  refine ⟨[⟨z, [], []⟩], .cons _ _ _ _ _ (.tail _ (by simp) (by simp; omega)) (.nil _), ?_⟩
  intro os' ha
  match os', ha with
  | [], ha => simp [AllShow] at ha
  | [o], ha =>
    cases ha.1 with
    | line l rest h hl =>
      obtain ⟨b, _, rfl⟩ := hl
      simp at h
    | tail => rfl
  | _ :: _ :: _, ha => exact absurd ha.2 (by simp [AllShow])

theorem reads_conv {delim : Byte} {max : Int} (sched) (ps : List Part) (final : List Bytes)
    (hp : Proper delim max ps final) (z : Bool) (b : Bytes) (he : Encodes I (segsOf ps final) b) :
    Reads I delim max ⟨z, [], b⟩ (readOps sched ps final ++ [.line]) (readObs sched ps final ++ [.line ([], some .eof)]) := by
  induction ps generalizing z b with
  | nil =>
    simp only [segsOf] at he
    cases he with
    | plain _ _ b h =>
      cases h
      have := reads_outer I (o := []) z final hp.2 (reads_end I _)
      simpa [readOps, readObs] using this
  | cons p ps ih =>
    simp only [segsOf] at he
    cases he with
    | plain _ _ b h =>
      cases h with
      | zlib _ s _ b hs h =>
        obtain ⟨hne, hl⟩ := hp.1 p (by simp)
        simp only [readOps, readObs, List.append_assoc]
        refine reads_outer I z p.plain (fun l h => hl l (by simp [h])) ?_
        rw [if_neg hne]
        refine Reads.zlib I sched rfl hs ?_
        refine reads_inner I p.zlib (fun l h => hl l (by simp [h])) ?_
        exact ih ⟨fun q hq => hp.1 q (by simp [hq]), hp.2⟩ true b h

/-- **C11.** Let any history of successful writer calls (with any buffer size and any behaviour of the
callbacks) amount to a conversation of plain and compressed parts, and let it be flushed.  Then the
other side, reading with `ReadLine` and `EnableZlib`, sees the same lines in the same order and then the end
of the stream, however the transport splits the bytes. -/
theorem lines_arrive (law : C.Law I) (size : Int) (tmo : List (Option Err)) (script : List SEv)
    (ops : List WOp) (hnc : .close ∉ ops) {rs} {w w' : Writer D}
    (hr : Writer.run C ops (newWriter size tmo ⟨[], script⟩) = .val (rs, w)) (hok : ∀ r ∈ rs, r.2 = none)
    (hf : w.flush C = .val (none, w'))
    (ps : List Part) (final : List Bytes) (delim : Byte) (max : Int) (hp : Proper delim max ps final)
    (hsec : (sections [] (.plain []) ops).1 ++ [(sections [] (.plain []) ops).2] = segsOf ps final)
    (cs : List Bytes) (hcs : ∀ c ∈ cs, c ≠ []) (hsent : cs.flatten = w'.sink.sent) (sched : List (Nat × Bool)) :
    ∃ r', Reader.Runs I ((newReader (chunks cs) delim).setMaxLine max) (readObs sched ps final ++ [.line ([], some .eof)]) r' := by
  obtain ⟨base, part, h1, h2, h3⟩ := flushed_wire C law size tmo script ops hnc hr hok hf
  have hlast : ∃ d, (sections [] (.plain []) ops).2 = .plain d := by
    have : ∀ (ps : List Part), ∃ pre, segsOf ps final = pre ++ [.plain final.flatten] := by
      intro ps
      induction ps with
      | nil => exact ⟨[], rfl⟩
      | cons p ps ih => obtain ⟨pre, hpre⟩ := ih; exact ⟨.plain _ :: .zlib _ :: pre, by simp [segsOf, hpre]; exact ⟨rfl, rfl⟩⟩
    obtain ⟨pre, hpre⟩ := this ps
    rw [hpre] at hsec
    exact ⟨_, (by simpa using (List.append_inj' hsec rfl).2)⟩
  obtain ⟨d, hd⟩ := hlast
  rw [hd] at h3 hsec
  simp only at h3
  subst h3
  have henc : Encodes I (segsOf ps final) cs.flatten := by
    rw [← hsec, hsent, h1]
    refine h2.append ?_
    simpa using Encodes.plain part [] [] Encodes.nil
  obtain ⟨ws, hs, hos⟩ := reads_conv I sched ps final hp false _ henc
  obtain ⟨os, r', hrun, hall⟩ := session_exact I cs hcs delim max _ ws hs
  rw [hos os hall] at hrun
  exact ⟨r', hrun⟩

/-- The hypotheses can be met: two plain lines, two compressed ones, one plain line at the end. -/
example : ∃ (rs : List (Nat × Option Err)) (w w' : Writer Bool) (cs : List Bytes),
    Writer.run stored [.line b!"a|", .line b!"$ZOn|", .enable 6, .line b!"bb|", .flush, .line b!"c|", .disable, .line b!"d|"]
      (newWriter 3 [] ⟨[], []⟩) = .val (rs, w) ∧ (∀ r ∈ rs, r.2 = none) ∧ w.flush stored = .val (none, w') ∧
    Proper 124 0 [⟨[b!"a|", b!"$ZOn|"], [b!"bb|", b!"c|"]⟩] [b!"d|"] ∧ (∀ c ∈ cs, c ≠ []) ∧ cs.flatten = w'.sink.sent := by
  refine ⟨_, _, _, [[97, 124, 36, 90, 79], [110, 124, 120], [1, 1, 98, 1, 98, 1, 124, 1, 99, 1, 124], [0, 100, 124]],
    rfl, by decide, rfl, ?_, by decide, by decide⟩
  have hl : ∀ b : Bytes, 124 ∉ b → IsLine 124 (b ++ [124]) := fun b h => ⟨b, h, rfl⟩
  refine ⟨?_, ?_⟩
  · intro p hp
    simp at hp; subst hp
    refine ⟨by simp, ?_⟩
    intro l hl'
    simp at hl'
    refine ⟨?_, .inl (by decide)⟩
    rcases hl' with rfl | rfl | rfl | rfl
    · exact hl b!"a" (by decide)
    · exact hl b!"$ZOn" (by decide)
    · exact hl b!"bb" (by decide)
    · exact hl b!"c" (by decide)
  · intro l hl'
    simp at hl'; subst hl'
    exact ⟨hl b!"d" (by decide), .inl (by decide)⟩

/-- Its sections are the conversation. -/
example : (fun s : List Seg × Seg => s.1 ++ [s.2]) (sections [] (.plain [])
      [.line b!"a|", .line b!"$ZOn|", .enable 6, .line b!"bb|", .flush, .line b!"c|", .disable, .line b!"d|"])
    = segsOf [⟨[b!"a|", b!"$ZOn|"], [b!"bb|", b!"c|"]⟩] [b!"d|"] := rfl

/-- On a plain connection: the lines written and flushed are the lines read, then the end of the
stream, for every chunking, also with empty reads and errors that come with data. -/
theorem plain_lines_arrive (law : C.Law I) (size : Int) (tmo : List (Option Err)) (script : List SEv)
    (ls : List Bytes) (delim : Byte) (hl : ∀ l ∈ ls, IsLine delim l) {rs} {w : Writer D}
    (hr : Writer.run C (ls.map .line ++ [.flush]) (newWriter size tmo ⟨[], script⟩) = .val (rs, w))
    (hok : ∀ r ∈ rs, r.2 = none) (s : Src) (hs : DataOnly s) (hb : bytesOf s = w.sink.sent) :
    ∃ r', Reader.Runs I ((newReader s delim).setMaxLine 0)
      ((ls.map fun l => Obs.line (l, none)) ++ [Obs.line ([], some .eof)]) r' := by
  obtain ⟨rs', w1, h1, h2, h3⟩ := sent_prefix C law size tmo script (ls.map .line ++ [.flush]) (by
    intro op hop
    simp at hop
    rcases hop with ⟨l, _, rfl⟩ | rfl <;> trivial)
  rw [hr] at h1; cases h1
  have hlen := run_length C hr
  have hlast : rs.getLast? = some (0, none) := by
    rw [List.getLast?_eq_getElem?]
    obtain ⟨rs0, x, rfl⟩ : ∃ a x, rs = a ++ [x] := by
      rcases List.eq_nil_or_concat rs with rfl | ⟨a, x, h⟩
      · simp at hlen
      · exact ⟨a, x, by simpa using h⟩
    have hx := hok x (by simp)
    have hrs0 : rs0.length = ls.length := by simpa using hlen
    obtain ⟨n, e⟩ := x
    simp only at hx; subst hx
    have hn : n = 0 := by
      have : ∀ (ops : List WOp) (w w' : Writer D) (rs0 : List (Nat × Option Err)) (x : Nat × Option Err), (∀ op ∈ ops, ¬ ∃ p, op = .write p) →
          Writer.run C ops w = .val (rs0 ++ [x], w') → x.1 = 0 := by
        intro ops
        induction ops with
        | nil => intro w w' rs0 x _ h; simp [Writer.run] at h
        | cons op ops ih =>
          intro w w' rs0 x hw h
          unfold Writer.run at h
          split at h <;> try simp at h
          rename_i r w1 hst
          split at h <;> try simp at h
          rename_i rs1 w2 hrun
          obtain ⟨h, rfl⟩ := h
          cases rs0 with
          | nil =>
            simp at h
            obtain ⟨rfl, rfl⟩ := h
            cases op with
            | write p => exact absurd ⟨p, rfl⟩ (hw (.write p) (by simp))
            | onLine f => simp [Writer.step] at hst; rw [← hst.1]
            | _ =>
              simp only [Writer.step] at hst
              split at hst <;> try simp at hst
              rw [← hst.1]
          | cons y rs0 =>
            simp at h
            obtain ⟨rfl, rfl⟩ := h
            exact ih _ _ rs0 x (fun o ho => hw o (by simp [ho])) hrun
      refine this _ _ _ _ _ ?_ hr
      intro op hop
      simp at hop
      rcases hop with ⟨l, _, rfl⟩ | rfl <;> simp
    subst hn
    simp
  have hsent := h3 _ rfl hlast
  have hoff : ∀ (ls : List Bytes) (rs : List (Nat × Option Err)), rs.length = (ls.map WOp.line ++ [WOp.flush]).length →
      (∀ r ∈ rs, r.2 = none) → offered [] (ls.map .line ++ [.flush]) rs = ls.flatten := by
    intro ls
    induction ls with
    | nil =>
      intro rs h1 h2
      match rs, h1 with
      | [(n, e)], _ => simp [offered]
    | cons l ls ih =>
      intro rs h1 h2
      cases rs with
      | nil => simp at h1
      | cons r rs =>
        obtain ⟨n, e⟩ := r
        have he : e = none := h2 (n, e) (by simp)
        subst he
        have := ih rs (by simpa using h1) (fun r hr => h2 r (by simp [hr]))
        simp only [List.map_cons, List.cons_append, offered, runHooks, if_true, this, List.flatten_cons]
  rw [hoff ls rs hlen hok, ← hb] at hsent
  have hsplit := splitLines_unique delim ls [] hl (by simp)
  simp only [List.append_nil] at hsplit
  have := readLine_chunk_independent I s hs delim 0 0 (.inl (Int.le_refl 0))
  rw [hsent, hsplit] at this
  simpa using this

example : ∃ rs w, Writer.run stored ([b!"ab|", b!"c|"].map .line ++ [.flush]) (newWriter 2 [] ⟨[], []⟩) = .val (rs, w) ∧
    (∀ r ∈ rs, r.2 = none) ∧ w.sink.sent = bytesOf [⟨b!"ab|", none⟩, ⟨[], none⟩, ⟨b!"c|", some .eof⟩] :=
  ⟨_, _, rfl, by decide, by decide⟩

end Verif.Props.LineDuplex
