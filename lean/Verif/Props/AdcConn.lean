import Verif.Adc.Conn
import Verif.Props.AdcLines
import Verif.Props.AdcSafety
import Verif.Props.NmdcConn

/-!
# C47: what one side of an ADC connection writes the other side reads
-/

namespace Verif.Props.AdcConn

open Verif.Go Verif.Lineproto Verif.Adc Verif.Props.LineReader Verif.Props.LineWriter Verif.Props.LineDuplex
open Verif.Props.NmdcReader (runs_split)
open Verif.Props.NmdcConn (add_add add_nil run_one run_append)

variable [ParseFloat] {D : Type} (C : Deflater D) {Z : Type} (I : Inflater Z)

set_option linter.unusedSectionVars false

/-! ## Reading -/

/-- The call `c` returns `res`; `room` bytes of the buffer are free after the line it reads. -/
def Reads (r : AReader Z) (c : Call) (room : Nat) (res : Except Err Out) (r' : AReader Z) : Prop :=
  ∃ n, ∀ fuel ≥ n, r.read I c room fuel = .val (res, r')

/-- The result of a call on a line. A call that panics has none. -/
def Gets (line : Bytes) (c : Call) (room : Nat) (res : Except Err Out) : Prop :=
  match c.decode room line with
  | .ok out => res = .ok out
  | .err e => res = .error e
  | .panic => False

/-- The next line, after some keep-alives. -/
theorem line_after_keepAlives (n : Nat) : ∀ (r : AReader Z) (k : Nat) (l : Bytes) (lr : Reader Z), (∀ j, r.onKeepAlive j = none) →
    l.getLast? = some c!"\n" → 1 < l.length →
    Reader.Runs I r.lines (List.replicate n (Obs.line (b!"\n", none)) ++ [Obs.line (l, none)]) lr →
    ∃ f, ∀ fuel ≥ f, r.readPacketLine I fuel k = .val (.ok l, { r with lines := lr }) := by
  induction n with
  | zero =>
    intro r k l lr _ hl hlen hr
    cases hr with
    | line _ r1 _ _ _ h t =>
      cases t
      obtain ⟨f, hf⟩ := h
      refine ⟨f + 1, fun fuel hge => ?_⟩
      obtain ⟨fuel, rfl⟩ : ∃ g, fuel = g + 1 := ⟨fuel - 1, by omega⟩
      simp only [AReader.readPacketLine, hf fuel (by omega), lineDelim, hl]
      simp [hlen]
  | succ n ih =>
    intro r k l lr hk hl hlen hr
    cases hr with
    | line _ r1 _ _ _ h t =>
      obtain ⟨f1, hf1⟩ := h
      obtain ⟨f2, hf2⟩ := ih { r with lines := r1 } (k + 1) l lr hk hl hlen t
      refine ⟨f1 + f2 + 1, fun fuel hge => ?_⟩
      obtain ⟨fuel, rfl⟩ : ∃ g, fuel = g + 1 := ⟨fuel - 1, by omega⟩
      simp only [AReader.readPacketLine, hf1 fuel (by omega), lineDelim]
      simp only [hk k]
      simpa using hf2 fuel (by omega)

/-- A reading call skips keep-alives and gives the decoded line. -/
theorem read_line (n : Nat) (r : AReader Z) (l : Bytes) (lr : Reader Z) (c : Call) (room : Nat) (res : Except Err Out)
    (hk : ∀ j, r.onKeepAlive j = none) (hl : l.getLast? = some c!"\n") (hlen : 1 < l.length) (hg : Gets l c room res)
    (hr : Reader.Runs I r.lines (List.replicate n (Obs.line (b!"\n", none)) ++ [Obs.line (l, none)]) lr) :
    Reads I r c room res { r with lines := lr } := by
  obtain ⟨f, hf⟩ := line_after_keepAlives I n r 0 l lr hk hl hlen hr
  refine ⟨f, fun fuel hge => ?_⟩
  simp only [AReader.read, hf fuel hge]
  unfold Gets at hg
  cases hd : c.decode room l with
  | ok out => rw [hd] at hg; simp only at hg; rw [hg]
  | err e => rw [hd] at hg; simp only at hg; rw [hg]
  | panic => rw [hd] at hg; exact hg.elim

/-- The end of the stream, or any other error of `ReadLine`. -/
theorem read_error (n : Nat) : ∀ (r : AReader Z) (k : Nat) (l : Bytes) (e : Err) (lr : Reader Z), (∀ j, r.onKeepAlive j = none) →
    Reader.Runs I r.lines (List.replicate n (Obs.line (b!"\n", none)) ++ [Obs.line (l, some e)]) lr →
    ∃ f, ∀ fuel ≥ f, r.readPacketLine I fuel k = .val (.error e, { r with lines := lr }) := by
  induction n with
  | zero =>
    intro r k l e lr _ hr
    cases hr with
    | line _ r1 _ _ _ h t =>
      cases t
      obtain ⟨f, hf⟩ := h
      refine ⟨f + 1, fun fuel hge => ?_⟩
      obtain ⟨fuel, rfl⟩ : ∃ g, fuel = g + 1 := ⟨fuel - 1, by omega⟩
      simp only [AReader.readPacketLine, hf fuel (by omega)]
  | succ n ih =>
    intro r k l e lr hk hr
    cases hr with
    | line _ r1 _ _ _ h t =>
      obtain ⟨f1, hf1⟩ := h
      obtain ⟨f2, hf2⟩ := ih { r with lines := r1 } (k + 1) l e lr hk t
      refine ⟨f1 + f2 + 1, fun fuel hge => ?_⟩
      obtain ⟨fuel, rfl⟩ : ∃ g, fuel = g + 1 := ⟨fuel - 1, by omega⟩
      simp only [AReader.readPacketLine, hf1 fuel (by omega), lineDelim]
      simp only [hk k]
      simpa using hf2 fuel (by omega)

/-- `OnKeepAlive` is called once for each keep-alive; an error it returns is the result of the call, and the reader stands right after
that keep-alive. -/
theorem keepAlive_hook (n : Nat) : ∀ (r : AReader Z) (k : Nat) (e : Err) (lr : Reader Z), (∀ j < n, r.onKeepAlive (k + j) = none) →
    r.onKeepAlive (k + n) = some e →
    Reader.Runs I r.lines (List.replicate (n + 1) (Obs.line (b!"\n", none))) lr →
    ∃ f, ∀ fuel ≥ f, r.readPacketLine I fuel k = .val (.error e, { r with lines := lr }) := by
  induction n with
  | zero =>
    intro r k e lr _ he hr
    cases hr with
    | line _ r1 _ _ _ h t =>
      cases t
      obtain ⟨f, hf⟩ := h
      refine ⟨f + 1, fun fuel hge => ?_⟩
      obtain ⟨fuel, rfl⟩ : ∃ g, fuel = g + 1 := ⟨fuel - 1, by omega⟩
      simp only [Nat.add_zero] at he
      simp only [AReader.readPacketLine, hf fuel (by omega), lineDelim, he]
      simp
  | succ n ih =>
    intro r k e lr hk he hr
    cases hr with
    | line _ r1 _ _ _ h t =>
      obtain ⟨f1, hf1⟩ := h
      obtain ⟨f2, hf2⟩ := ih { r with lines := r1 } (k + 1) e lr
        (fun j hj => by have := hk (j + 1) (by omega); rwa [show k + (j + 1) = k + 1 + j by omega] at this)
        (by rwa [show k + (n + 1) = k + 1 + n by omega] at he) t
      refine ⟨f1 + f2 + 1, fun fuel hge => ?_⟩
      obtain ⟨fuel, rfl⟩ : ∃ g, fuel = g + 1 := ⟨fuel - 1, by omega⟩
      have h0 := hk 0 (by omega)
      simp only [Nat.add_zero] at h0
      simp only [AReader.readPacketLine, hf1 fuel (by omega), lineDelim, h0]
      simpa using hf2 fuel (by omega)

/-! ## Writing -/

/-- The line of a packet. -/
def lineOf (p : Packet) : Bytes :=
  match p.marshal with
  | .ok l => l
  | _ => []

theorem marshal_lineOf (p : Packet) : p.marshal = .ok (lineOf p) := by
  obtain ⟨l, hl⟩ := AdcLines.packet_encodes p
  simp [lineOf, hl]

theorem lineOf_shape (p : Packet) : ∃ x, lineOf p = x ++ b!"\n" ∧ 4 ≤ x.length := by
  obtain ⟨b, hb⟩ := AdcLines.message_encodes p.message
  have := AdcLines.marshal_raw p hb
  rw [marshal_lineOf p, Res.ok.injEq] at this
  rw [this]
  have hsz := p.message.cmd.size
  unfold AdcPackets.tailOf
  split
  · exact ⟨p.kind :: p.message.cmd.bytes ++ AdcPackets.addressOf p, by simp, by simp; omega⟩
  · exact ⟨p.kind :: p.message.cmd.bytes ++ (AdcPackets.addressOf p ++ c!" " :: b), by simp, by simp; omega⟩

/-- The letter and the addresses that the documentation of ADC asks for. -/
def destHead : Dest → Byte × Bytes
  | .info => (c!"I", [])
  | .hub => (c!"H", [])
  | .client => (c!"C", [])
  | .broadcast frm => (c!"B", b!" " ++ frm.bytes)
  | .direct frm to => (c!"D", b!" " ++ frm.bytes ++ b!" " ++ to.bytes)
  | .echo frm to => (c!"E", b!" " ++ frm.bytes ++ b!" " ++ to.bytes)
  | .feature frm sel => (c!"F", b!" " ++ frm.bytes ++ (sel.map fun f => c!" " :: (if f.sel then c!"+" else c!"-") :: f.fea.bytes).flatten)

/-- `WriteInfo`, `WriteDirect` and so on write the letter of the kind, the name of the command, the addresses in the order of the
arguments, and the payload after a space unless it is empty. -/
theorem dest_line (d : Dest) (msg : Msg) (payload : Bytes) (h : msg.marshal = .ok payload) :
    lineOf (d.packet msg) = (destHead d).1 :: msg.cmd.bytes ++ (destHead d).2 ++ (if payload = [] then [] else b!" " ++ payload) ++ b!"\n" := by
  have hm : (d.packet msg).message = msg := by cases d <;> rfl
  have := AdcLines.marshal_raw (d.packet msg) (b := payload) (by rw [hm]; exact h)
  rw [marshal_lineOf, Res.ok.injEq] at this
  rw [this, hm]
  have ht : AdcPackets.tailOf payload = (if payload = [] then [] else b!" " ++ payload) ++ b!"\n" := by
    unfold AdcPackets.tailOf
    cases payload <;> simp
  rw [ht]
  have ha : AdcPackets.addressOf (d.packet msg) = (destHead d).2 := by
    cases d <;> simp [Dest.packet, AdcPackets.addressOf, destHead]
  have hk : (d.packet msg).kind = (destHead d).1 := by cases d <;> rfl
  rw [ha, hk]
  simp

example : lineOf ((Dest.direct ⟨b!"AAAB", rfl⟩ ⟨b!"AAAC", rfl⟩).packet (.status ⟨1, 20, b!"odd one"⟩)) = b!"DSTA AAAB AAAC 120 odd\\sone\n" :=
  dest_line _ _ b!"120 odd\\sone" (by with_unfolding_all rfl)

/-- The call of the line writer behind a call. -/
def wop : AOp → WOp
  | .keepAlive => .line b!"\n"
  | .packet p => .line (lineOf p)
  | .message d msg => .line (lineOf (d.packet msg))
  | .flush => .flush
  | .zOn lvl => .enable lvl
  | .zOff => .disable
  | .close => .close

theorem step_wop (op : AOp) (w w' : Writer D) (e : Option Err) (h : aStep C op w = .val (e, w')) :
    w.step C (wop op) = .val ((0, e), w') := by
  cases op <;>
    simp only [aStep, writeKeepAlive, writePacket, marshal_lineOf, lineDelim] at h <;>
    simp only [wop, Writer.step, h]

theorem run_wop (ops : List AOp) : ∀ (w w' : Writer D) (es : List (Option Err)), aRun C ops w = .val (es, w') →
    Writer.run C (ops.map wop) w = .val (es.map fun e => (0, e), w') := by
  induction ops with
  | nil => intro w w' es h; cases h; rfl
  | cons op ops ih =>
    intro w w' es h
    rw [aRun] at h
    cases hs : aStep C op w with
    | panic => rw [hs] at h; cases h
    | timeout => rw [hs] at h; cases h
    | val y =>
      obtain ⟨e, w1⟩ := y
      rw [hs] at h
      simp only at h
      cases hr : aRun C ops w1 with
      | panic => rw [hr] at h; cases h
      | timeout => rw [hr] at h; cases h
      | val z =>
        obtain ⟨es1, w2⟩ := z
        rw [hr] at h
        cases h
        simp only [List.map_cons, Writer.run, step_wop C op w w1 e hs, ih w1 w' es1 hr]

/-! ## Conversations -/

/-- Calls that send packets, keep-alives and nothing else. -/
def Quiet : AOp → Prop
  | .keepAlive | .packet _ | .message _ _ | .flush => True
  | _ => False

/-- The packets given to these calls. -/
def sent : List AOp → List Packet
  | [] => []
  | .packet p :: ops => p :: sent ops
  | .message d msg :: ops => d.packet msg :: sent ops
  | _ :: ops => sent ops

/-- The lines these calls write. -/
def sentLines : List AOp → List Bytes
  | [] => []
  | .packet p :: ops => lineOf p :: sentLines ops
  | .message d msg :: ops => lineOf (d.packet msg) :: sentLines ops
  | .keepAlive :: ops => b!"\n" :: sentLines ops
  | _ :: ops => sentLines ops

/-- A plain phase whose last packet announces compression, then a compressed phase. -/
structure Phase where
  plain : List AOp
  on : Packet
  lvl : Int
  zlib : List AOp

/-- The calls of the sending side. -/
def callsOf : List Phase → List AOp → List AOp
  | [], final => final
  | p :: ps, final => p.plain ++ .packet p.on :: .zOn p.lvl :: (p.zlib ++ .zOff :: callsOf ps final)

/-- What the receiving side sees. -/
inductive AObs where
  | call (c : Call) (room : Nat) (res : Except Err Out)
  | zlib (sched : List (Nat × Bool))

/-- Calls of the reader and `EnableZlib` by the receiving side, with their results. -/
inductive ASession : AReader Z → List AObs → AReader Z → Prop where
  | nil (r : AReader Z) : ASession r [] r
  | call (r r1 r2 : AReader Z) (c : Call) (room : Nat) (res : Except Err Out) (rest : List AObs) (h : Reads I r c room res r1)
      (t : ASession r1 rest r2) : ASession r (.call c room res :: rest) r2
  | zlib (r : AReader Z) (lr : Reader Z) (r2 : AReader Z) (sched : List (Nat × Bool)) (rest : List AObs)
      (h : r.lines.EnablesZlib I sched lr) (t : ASession { r with lines := lr } rest r2) : ASession r (.zlib sched :: rest) r2

/-- One call for each packet, with the result of that call on that packet. -/
def Answers : List Packet → List AObs → Prop
  | [], obs => obs = []
  | p :: ps, obs => ∃ c room res rest, obs = .call c room res :: rest ∧ Gets (lineOf p) c room res ∧ Answers ps rest

/-- What the receiving side must see: an answer for each packet in order; it switches on decompression after the announcement. -/
def Received (sched : List (Nat × Bool)) : List Phase → List AOp → List AObs → Prop
  | [], final, obs => Answers (sent final) obs
  | p :: ps, final, obs => ∃ o1 o2 o3, obs = o1 ++ .zlib sched :: (o2 ++ o3) ∧ Answers (sent p.plain ++ [p.on]) o1 ∧
      Answers (sent p.zlib) o2 ∧ Received sched ps final o3

/-- The lines of some calls: keep-alives and packets. -/
inductive Lines : List Packet → List Bytes → Prop where
  | nil : Lines [] []
  | keepAlive {ps ls} (t : Lines ps ls) : Lines ps (b!"\n" :: ls)
  | packet (p) {ps ls} (t : Lines ps ls) : Lines (p :: ps) (lineOf p :: ls)

theorem lines_sent (ops : List AOp) : Lines (sent ops) (sentLines ops) := by
  induction ops with
  | nil => exact .nil
  | cons op ops ih =>
    cases op with
    | keepAlive => exact .keepAlive ih
    | packet p => exact .packet p ih
    | message d m => exact .packet _ ih
    | _ => exact ih

theorem lines_snoc {ps : List Packet} {ls : List Bytes} (h : Lines ps ls) (p : Packet) : Lines (ps ++ [p]) (ls ++ [lineOf p]) := by
  induction h with
  | nil => exact .packet p .nil
  | keepAlive _ ih => exact .keepAlive ih
  | packet q _ ih => exact .packet q ih

/-- Keep-alives not yet skipped after some lines, `n` before. -/
def trail : Nat → List Bytes → Nat
  | n, [] => n
  | n, l :: ls => if l = b!"\n" then trail (n + 1) ls else trail 0 ls

theorem lineOf_ne (p : Packet) : lineOf p ≠ b!"\n" := by
  obtain ⟨x, h, hx⟩ := lineOf_shape p
  intro he
  have := congrArg List.length (h.symm.trans he)
  simp at this
  subst this
  simp at hx

theorem trail_last (n : Nat) (ls : List Bytes) (p : Packet) : trail n (ls ++ [lineOf p]) = 0 := by
  induction ls generalizing n with
  | nil => simp [trail, lineOf_ne]
  | cons x ls ih => simp only [List.cons_append, trail]; split <;> exact ih _

/-- Reading the packets of some lines. -/
theorem session_lines {ps : List Packet} {ls : List Bytes} (hl : Lines ps ls) : ∀ (n : Nat) (r : AReader Z) (os : List Obs)
    (lr : Reader Z) (o obs : List AObs) (r2 : AReader Z), (∀ j, r.onKeepAlive j = none) → Answers ps o →
    Reader.Runs I r.lines (List.replicate n (Obs.line (b!"\n", none)) ++ (ls.map (fun l => Obs.line (l, none)) ++ os)) lr →
    (∀ r1, Reader.Runs I r1 (List.replicate (trail n ls) (Obs.line (b!"\n", none)) ++ os) lr → ASession I { r with lines := r1 } obs r2) →
    ASession I r (o ++ obs) r2 := by
  induction hl with
  | nil =>
    intro n r os lr o obs r2 _ ha hr hk
    cases ha
    exact hk r.lines (by simpa [trail] using hr)
  | @keepAlive ps ls _ ih =>
    intro n r os lr o obs r2 hh ha hr hk
    refine ih (n + 1) r os lr o obs r2 hh ha ?_ ?_
    · rw [List.replicate_succ']; simpa using hr
    · simpa [trail] using hk
  | @packet p ps ls _ ih =>
    intro n r os lr o obs r2 hh ha hr hk
    obtain ⟨c, room, res, rest, rfl, hg, ha⟩ := ha
    have hr' : Reader.Runs I r.lines ((List.replicate n (Obs.line (b!"\n", none)) ++ [Obs.line (lineOf p, none)]) ++
        (List.replicate 0 (Obs.line (b!"\n", none)) ++ (ls.map (fun l => Obs.line (l, none)) ++ os))) lr := by
      simpa using hr
    obtain ⟨r1, h1, h2⟩ := runs_split I hr'
    obtain ⟨x, hx, hxl⟩ := lineOf_shape p
    refine .call _ { r with lines := r1 } _ _ _ _ _ (read_line I n r (lineOf p) r1 c room res hh (by rw [hx]; simp)
      (by rw [hx]; simp; omega) hg h1) ?_
    refine ih 0 { r with lines := r1 } os lr rest obs r2 hh ha h2 ?_
    simpa [trail, lineOf_ne] using hk

/-- The parts of the conversation. -/
def partsOf (ps : List Phase) : List Part := ps.map fun p => ⟨sentLines p.plain ++ [lineOf p.on], sentLines p.zlib⟩

theorem session_phases (sched : List (Nat × Bool)) (ps : List Phase) (final : List AOp) (lr : Reader Z) (c : Call) (room : Nat) :
    ∀ (n : Nat) (r : AReader Z) (obs : List AObs), (∀ j, r.onKeepAlive j = none) → Received sched ps final obs →
    Reader.Runs I r.lines (List.replicate n (Obs.line (b!"\n", none)) ++
      (readObs sched (partsOf ps) (sentLines final) ++ [.line ([], some .eof)])) lr →
    ASession I r (obs ++ [.call c room (.error .eof)]) { r with lines := lr } := by
  induction ps with
  | nil =>
    intro n r obs hh ha hr
    refine session_lines I (lines_sent final) n r [.line ([], some .eof)] lr obs [.call c room (.error .eof)] { r with lines := lr } hh ha
      (by simpa [readObs, partsOf] using hr) (fun r1 h1 => ?_)
    refine .call _ { r with lines := lr } _ _ _ _ _ ?_ (.nil _)
    obtain ⟨f, hf⟩ := read_error I _ { r with lines := r1 } 0 [] .eof lr hh h1
    exact ⟨f, fun fuel hge => by simp only [AReader.read, hf fuel hge]⟩
  | cons p ps ih =>
    intro n r obs hh ha hr
    obtain ⟨o1, o2, o3, rfl, h1, h2, h3⟩ := ha
    have := session_lines I (lines_snoc (lines_sent p.plain) p.on) n r
      (.zlib sched :: ((sentLines p.zlib).map fun l => .line (l, none)) ++ (readObs sched (partsOf ps) (sentLines final) ++ [.line ([], some .eof)]))
      lr o1 (.zlib sched :: (o2 ++ (o3 ++ [.call c room (.error .eof)]))) { r with lines := lr } hh h1
      (by simpa [readObs, partsOf] using hr) ?_
    · simpa using this
    · intro r1 hr1
      rw [trail_last] at hr1
      simp only [List.replicate_zero, List.nil_append, List.cons_append] at hr1
      cases hr1 with
      | zlib _ r1' _ _ _ hz hrest =>
        refine .zlib _ r1' _ _ _ hz ?_
        refine session_lines I (lines_sent p.zlib) 0 { r with lines := r1' }
          (readObs sched (partsOf ps) (sentLines final) ++ [.line ([], some .eof)]) lr o2 (o3 ++ [.call c room (.error .eof)])
          { r with lines := lr } hh h2 (by simpa using hrest) ?_
        intro r2 hr2
        exact ih _ { r with lines := r2 } o3 hh h3 hr2

theorem sections_quiet (ops : List AOp) (hq : ∀ op ∈ ops, Quiet op) (cur : Seg) (rest : List WOp) :
    sections [] cur (ops.map wop ++ rest) = sections [] (cur.add (sentLines ops).flatten) rest := by
  induction ops generalizing cur with
  | nil => simp [sentLines, add_nil]
  | cons op ops ih =>
    have hq' : ∀ o ∈ ops, Quiet o := fun o ho => hq o (by simp [ho])
    have h0 := hq op (by simp)
    cases op with
    | keepAlive =>
      simp only [List.map_cons, wop, sentLines, List.cons_append, sections, runHooks, if_true, List.flatten_cons]
      rw [ih hq', add_add]; rfl
    | flush =>
      simp only [List.map_cons, wop, sentLines, List.cons_append, sections]
      exact ih hq' cur
    | packet p =>
      simp only [List.map_cons, wop, sentLines, List.cons_append, sections, runHooks, if_true, List.flatten_cons]
      rw [ih hq', add_add]
    | message d m =>
      simp only [List.map_cons, wop, sentLines, List.cons_append, sections, runHooks, if_true, List.flatten_cons]
      rw [ih hq', add_add]
    | zOn lvl => exact h0.elim
    | zOff => exact h0.elim
    | close => exact h0.elim

/-- Only sending calls in the phases. -/
def QuietPhases (ps : List Phase) (final : List AOp) : Prop :=
  (∀ p ∈ ps, (∀ op ∈ p.plain, Quiet op) ∧ ∀ op ∈ p.zlib, Quiet op) ∧ ∀ op ∈ final, Quiet op

theorem sections_calls (ps : List Phase) (final : List AOp) (hq : QuietPhases ps final) :
    (sections [] (.plain []) ((callsOf ps final).map wop)).1 ++ [(sections [] (.plain []) ((callsOf ps final).map wop)).2] =
      segsOf (partsOf ps) (sentLines final) := by
  induction ps with
  | nil =>
    have := sections_quiet final hq.2 (.plain []) []
    simp only [List.append_nil] at this
    simp only [callsOf, this, sections, partsOf, List.map_nil, segsOf]
    simp [Seg.add]
  | cons p ps ih =>
    have ih := ih ⟨fun q hq' => hq.1 q (by simp [hq']), hq.2⟩
    have h1 := (hq.1 p (by simp)).1
    have h2 := (hq.1 p (by simp)).2
    simp only [callsOf, List.map_append, List.map_cons]
    rw [sections_quiet p.plain h1]
    simp only [wop, List.cons_append, sections, runHooks, if_true]
    rw [sections_quiet p.zlib h2]
    simp only [sections, partsOf, List.map_cons, segsOf, List.cons_append]
    simp only [partsOf] at ih
    rw [ih]
    simp [Seg.add]

/-- A packet that is one line within the limit of the reader (a limit of zero or less is no limit). -/
def Fits (max : Int) (p : Packet) : Prop := AdcLines.PacketFree c!"\n" p ∧ (max ≤ 0 ∨ ((lineOf p).length : Int) ≤ max)

/-- All packets of the conversation. -/
def allSent : List Phase → List AOp → List Packet
  | [], final => sent final
  | p :: ps, final => sent p.plain ++ p.on :: (sent p.zlib ++ allSent ps final)

theorem fits_line {max : Int} {p : Packet} (h : Fits max p) : Spec.IsLine c!"\n" (lineOf p) ∧ (max ≤ 0 ∨ ((lineOf p).length : Int) ≤ max) := by
  obtain ⟨body, hb, hn⟩ := AdcLines.line_free (.inl rfl) p h.1 (marshal_lineOf p)
  exact ⟨⟨body, hn, hb⟩, h.2⟩

theorem mem_lines {ps : List Packet} {ls : List Bytes} (h : Lines ps ls) {l : Bytes} (hl : l ∈ ls) : l = b!"\n" ∨ ∃ p ∈ ps, l = lineOf p := by
  induction h with
  | nil => simp at hl
  | keepAlive _ ih =>
    rcases List.mem_cons.mp hl with rfl | hl
    · exact .inl rfl
    · exact ih hl
  | packet p _ ih =>
    rcases List.mem_cons.mp hl with rfl | hl
    · exact .inr ⟨p, by simp, rfl⟩
    · rcases ih hl with h | ⟨q, hq, h⟩
      · exact .inl h
      · exact .inr ⟨q, by simp [hq], h⟩

/-- **C47.** One side makes any calls of `WritePacket`, `WriteInfo` and so on, streams, `WriteKeepAlive` and `Flush`, with compressed
phases announced by a packet and ended by `DisableZlib`, all of which succeed, and flushes.  Then the other side, calling any of the
reading functions and switching on decompression after each announcement, gets for each packet in order what its call makes of that
packet (see `raw_gets`, `packet_gets`, `info_gets`, `client_gets`), keep-alives being skipped, and then the end of the stream: for
every buffer size, every behaviour of the timeout callback and of the sink, every compressor and decompressor that fit together and
every splitting of the bytes by the transport. -/
theorem connection (law : C.Law I) (size : Int) (tmo : List (Option Err)) (script : List SEv)
    (ps : List Phase) (final : List AOp) (hq : QuietPhases ps final) (max : Int)
    (ht : ∀ p ∈ allSent ps final, Fits max p) {es : List (Option Err)} {w w' : Writer D}
    (hrun : aRun C (callsOf ps final) (newWriter size tmo ⟨[], script⟩) = .val (es, w)) (hok : ∀ e ∈ es, e = none)
    (hf : aStep C .flush w = .val (none, w'))
    (cs : List Bytes) (hcs : ∀ c ∈ cs, c ≠ []) (hsent : cs.flatten = w'.sink.sent)
    (sched : List (Nat × Bool)) (obs : List AObs) (hobs : Received sched ps final obs) (c : Call) (room : Nat) :
    ∃ r', ASession I { lines := (newReader (chunks cs) c!"\n").setMaxLine max } (obs ++ [.call c room (.error .eof)]) r' := by
  have h1 := run_wop C _ _ w es hrun
  have hnc : WOp.close ∉ (callsOf ps final).map wop := by
    have hquiet : ∀ ops : List AOp, (∀ op ∈ ops, Quiet op) → WOp.close ∉ ops.map wop := by
      intro ops h hm
      obtain ⟨op, h3, h4⟩ := List.mem_map.mp hm
      have := h op h3
      cases op <;> simp [wop, Quiet] at h4 this
    clear ht hrun hsent h1 hobs
    induction ps with
    | nil => exact hquiet final hq.2
    | cons p ps ih =>
      have := hq.1 p (by simp)
      simp only [callsOf, List.map_append, List.map_cons, List.mem_append, List.mem_cons, wop, not_or]
      exact ⟨hquiet _ this.1, by simp, by simp, hquiet _ this.2, by simp, ih ⟨fun q hq' => hq.1 q (by simp [hq']), hq.2⟩⟩
  have hlines : ∀ ops : List AOp, (∀ p ∈ sent ops, Fits max p) → ∀ l ∈ sentLines ops,
      Spec.IsLine c!"\n" l ∧ (max ≤ 0 ∨ (l.length : Int) ≤ max) := by
    intro ops hs l hl
    rcases mem_lines (lines_sent ops) hl with rfl | ⟨p, hp, rfl⟩
    · refine ⟨⟨[], by simp, rfl⟩, ?_⟩
      simp only [List.length_cons, List.length_nil]
      omega
    · exact fits_line (hs p hp)
  have hp : Proper c!"\n" max (partsOf ps) (sentLines final) := by
    have hfin : ∀ ps : List Phase, (∀ p ∈ allSent ps final, Fits max p) → ∀ p ∈ sent final, Fits max p := by
      intro ps
      induction ps with
      | nil => exact fun h => h
      | cons q ps ih => exact fun h => ih (fun p hp => h p (by simp [allSent, hp]))
    have hin : ∀ (ps : List Phase) (q : Phase), q ∈ ps → ∀ p, p ∈ sent q.plain ∨ p = q.on ∨ p ∈ sent q.zlib → p ∈ allSent ps final := by
      intro ps
      induction ps with
      | nil => intro q hq; simp at hq
      | cons q0 ps ih =>
        intro q hq p hp
        simp only [allSent, List.mem_append, List.mem_cons]
        rcases List.mem_cons.mp hq with rfl | hq
        · rcases hp with hp | hp | hp
          · exact .inl hp
          · exact .inr (.inl hp)
          · exact .inr (.inr (.inl hp))
        · exact .inr (.inr (.inr (ih q hq p hp)))
    refine ⟨?_, hlines final (hfin ps ht)⟩
    intro q hq'
    obtain ⟨p, hpm, rfl⟩ := List.mem_map.mp hq'
    refine ⟨by simp, ?_⟩
    intro l hl
    simp only [List.mem_append, List.mem_singleton] at hl
    rcases hl with (hl | rfl) | hl
    · exact hlines p.plain (fun x hx => ht x (hin ps p hpm x (.inl hx))) l hl
    · exact fits_line (ht _ (hin ps p hpm _ (.inr (.inl rfl))))
    · exact hlines p.zlib (fun x hx => ht x (hin ps p hpm x (.inr (.inr hx)))) l hl
  obtain ⟨lr, hlr⟩ := lines_arrive C I law size tmo script _ hnc h1 (by
      intro r hr
      obtain ⟨e, he, rfl⟩ := List.mem_map.mp hr
      exact hok e he) hf (partsOf ps) (sentLines final) c!"\n" max hp
    (sections_calls ps final hq) cs hcs hsent sched
  exact ⟨_, session_phases I sched ps final lr c room 0
    { lines := (newReader (chunks cs) c!"\n").setMaxLine max } obs (fun _ => rfl) hobs (by simpa using hlr)⟩

/-! ## What the calls make of a packet -/

/-- `ReadPacketRaw` gives the packet with its raw message. -/
theorem raw_gets (room : Nat) (p : Packet) (typ : MsgType) (data : Bytes) (hm : p.message = .raw typ data)
    (h : AdcPackets.PacketOk p typ data) : Gets (lineOf p) .raw room (.ok (.packet p)) := by
  obtain ⟨l, hl, hd⟩ := AdcPackets.packet_roundtrip_partial room p typ data hm h
  rw [marshal_lineOf] at hl
  cases hl
  simp only [Gets, Call.decode, hd, Res.ok_bind]

/-- `ReadPacket` gives the packet with its typed message. -/
theorem packet_gets (room : Nat) (p : Packet) (hm : AdcMessages.MsgOk p.message) (h0 : AdcLines.PacketFree 0 p) (hs : AdcLines.PayloadOk p) :
    Gets (lineOf p) .packet room (.ok (.packet p)) := by
  obtain ⟨l, hl, hd⟩ := AdcLines.typed_roundtrip_partial room p hm h0 hs
  rw [marshal_lineOf] at hl
  cases hl
  simp only [Gets, Call.decode, hd, Res.ok_bind]

/-- From `ReadPacket` to the other calls. -/
theorem decoded_raw {room : Nat} {line : Bytes} {p : Packet} (h : decodePacket room line = .ok p) :
    ∃ q, decodePacketRaw room line = .ok q ∧ decodeMessage q.message = .ok p.message ∧ q.kind = p.kind := by
  obtain ⟨q, hq, h⟩ := Res.bind_eq_ok.mp h
  obtain ⟨m, hm, h⟩ := Res.bind_eq_ok.mp h
  cases h
  refine ⟨q, hq, ?_, by cases q <;> rfl⟩
  rw [hm]
  cases q <;> rfl

/-- `ReadInfo` gives the message of an info packet. -/
theorem info_gets (room : Nat) (m : Msg) (hm : AdcMessages.MsgOk m) (h0 : AdcLines.MsgFree 0 m) :
    Gets (lineOf (.info m)) .info room (.ok (.message m)) := by
  obtain ⟨l, hl, hd⟩ := AdcLines.typed_roundtrip_partial room (.info m) hm ⟨h0, trivial⟩ trivial
  rw [marshal_lineOf] at hl
  cases hl
  obtain ⟨q, hq, hmm, hk⟩ := decoded_raw hd
  cases q <;> simp only [Packet.kind] at hk <;> first | exact absurd hk (by decide) | skip
  simp only [Packet.message] at hmm
  simp only [Gets, Call.decode, hq, Res.ok_bind, hmm]

/-- `ReadClient` gives the message of a client packet. -/
theorem client_gets (room : Nat) (m : Msg) (hm : AdcMessages.MsgOk m) (h0 : AdcLines.MsgFree 0 m) :
    Gets (lineOf (.client m)) .client room (.ok (.message m)) := by
  obtain ⟨l, hl, hd⟩ := AdcLines.typed_roundtrip_partial room (.client m) hm ⟨h0, trivial⟩ trivial
  rw [marshal_lineOf] at hl
  cases hl
  obtain ⟨q, hq, hmm, hk⟩ := decoded_raw hd
  cases q <;> simp only [Packet.kind] at hk <;> first | exact absurd hk (by decide) | skip
  simp only [Packet.message] at hmm
  simp only [Gets, Call.decode, hq, Res.ok_bind, hmm]

/-- `ReadInfo` refuses other packets, and so does `ReadClient`; the packet is consumed. -/
theorem kind_refused (room : Nat) (p : Packet) (typ : MsgType) (data : Bytes) (hm : p.message = .raw typ data)
    (h : AdcPackets.PacketOk p typ data) :
    (p.kind ≠ c!"I" → ∃ e, Gets (lineOf p) .info room (.error e)) ∧ (p.kind ≠ c!"C" → ∃ e, Gets (lineOf p) .client room (.error e)) := by
  obtain ⟨l, hl, hd⟩ := AdcPackets.packet_roundtrip_partial room p typ data hm h
  rw [marshal_lineOf] at hl
  cases hl
  constructor
  · intro hk
    refine ⟨.other 131, ?_⟩
    cases p <;> first | exact absurd rfl hk | simp only [Gets, Call.decode, hd, Res.ok_bind]
  · intro hk
    refine ⟨.other 132, ?_⟩
    cases p <;> first | exact absurd rfl hk | simp only [Gets, Call.decode, hd, Res.ok_bind]

theorem answers_raw (room : Nat) (ps : List Packet)
    (h : ∀ p ∈ ps, ∃ typ data, p.message = .raw typ data ∧ AdcPackets.PacketOk p typ data) :
    Answers ps (ps.map fun p => .call .raw room (.ok (.packet p))) := by
  induction ps with
  | nil => rfl
  | cons p ps ih =>
    obtain ⟨typ, data, hm, hok⟩ := h p (by simp)
    exact ⟨_, _, _, _, rfl, raw_gets room p typ data hm hok, ih fun q hq => h q (by simp [hq])⟩

/-- **C47**, as it is used most: packets with raw messages, written with any keep-alives and flushes between them, are read by
`ReadPacketRaw` as the same packets in the same order, and then comes the end of the stream. -/
theorem packets_arrive (law : C.Law I) (size : Int) (tmo : List (Option Err)) (script : List SEv) (ops : List AOp)
    (hq : ∀ op ∈ ops, Quiet op) (max : Int)
    (ht : ∀ p ∈ sent ops, Fits max p ∧ ∃ typ data, p.message = .raw typ data ∧ AdcPackets.PacketOk p typ data)
    {es : List (Option Err)} {w w' : Writer D} (hrun : aRun C ops (newWriter size tmo ⟨[], script⟩) = .val (es, w))
    (hok : ∀ e ∈ es, e = none) (hf : aStep C .flush w = .val (none, w'))
    (cs : List Bytes) (hcs : ∀ c ∈ cs, c ≠ []) (hsent : cs.flatten = w'.sink.sent) (room : Nat) :
    ∃ r', ASession I { lines := (newReader (chunks cs) c!"\n").setMaxLine max }
      ((sent ops).map (fun p => .call .raw room (.ok (.packet p))) ++ [.call .raw room (.error .eof)]) r' :=
  connection C I law size tmo script [] ops ⟨by simp, hq⟩ max (fun p hp => (ht p hp).1) hrun hok hf cs hcs hsent [] _
    (answers_raw room (sent ops) fun p hp => (ht p hp).2) .raw room

theorem answers_packet (room : Nat) (ps : List Packet)
    (h : ∀ p ∈ ps, AdcMessages.MsgOk p.message ∧ AdcLines.PacketFree 0 p ∧ AdcLines.PayloadOk p) :
    Answers ps (ps.map fun p => .call .packet room (.ok (.packet p))) := by
  induction ps with
  | nil => rfl
  | cons p ps ih =>
    obtain ⟨h1, h2, h3⟩ := h p (by simp)
    exact ⟨_, _, _, _, rfl, packet_gets room p h1 h2 h3, ih fun q hq => h q (by simp [hq])⟩

/-- The same for typed messages and `ReadPacket`. -/
theorem messages_arrive (law : C.Law I) (size : Int) (tmo : List (Option Err)) (script : List SEv) (ops : List AOp)
    (hq : ∀ op ∈ ops, Quiet op) (max : Int)
    (ht : ∀ p ∈ sent ops, Fits max p ∧ AdcMessages.MsgOk p.message ∧ AdcLines.PacketFree 0 p ∧ AdcLines.PayloadOk p)
    {es : List (Option Err)} {w w' : Writer D} (hrun : aRun C ops (newWriter size tmo ⟨[], script⟩) = .val (es, w))
    (hok : ∀ e ∈ es, e = none) (hf : aStep C .flush w = .val (none, w'))
    (cs : List Bytes) (hcs : ∀ c ∈ cs, c ≠ []) (hsent : cs.flatten = w'.sink.sent) (room : Nat) :
    ∃ r', ASession I { lines := (newReader (chunks cs) c!"\n").setMaxLine max }
      ((sent ops).map (fun p => .call .packet room (.ok (.packet p))) ++ [.call .packet room (.error .eof)]) r' :=
  connection C I law size tmo script [] ops ⟨by simp, hq⟩ max (fun p hp => (ht p hp).1) hrun hok hf cs hcs hsent [] _
    (answers_packet room (sent ops) fun p hp => (ht p hp).2) .packet room

/-! ## A conversation -/

/-- A packet whose message is given as bytes. -/
def line1 : Packet := .broadcast ⟨b!"AAAB", rfl⟩ (.raw ⟨b!"MSG", rfl⟩ b!"hello\\sall")

/-- A packet with a typed message. -/
def line2 : Packet := .info (.status ⟨0, 0, b!"compressed from here on"⟩)

example : let ps : List Phase := [⟨[.keepAlive, .packet line1], line2, 6, [.message .client (.status ⟨1, 20, b!"odd"⟩), .flush, .keepAlive]⟩]
    let final : List AOp := [.message .info (.status ⟨0, 0, b!"plain again"⟩)]
    QuietPhases ps final ∧ (∀ p ∈ allSent ps final, Fits 32768 p) ∧
    (∃ es w w', aRun stored (callsOf ps final) (newWriter 3 [] ⟨[], []⟩) = .val (es, w) ∧ (∀ e ∈ es, e = none) ∧
      aStep stored .flush w = .val (none, w') ∧ b!"\nBMSG AAAB hello\\sall\nISTA 000 compressed\\sfrom\\shere\\son\n" <+: w'.sink.sent) ∧
    Received [] ps final [.call .raw 0 (.ok (.packet line1)), .call .info 1 (.ok (.message (.status ⟨0, 0, b!"compressed from here on"⟩))),
      .zlib [], .call .packet 7 (.ok (.packet (.client (.status ⟨1, 20, b!"odd"⟩)))), .call .client 0 (.error (.other 132))] := by
  refine ⟨⟨?_, ?_⟩, ?_, ?_, ?_⟩
  · intro p hp
    simp only [List.mem_singleton] at hp
    subst hp
    constructor <;> intro op h <;> simp only [List.mem_cons, List.not_mem_nil, or_false] at h
    · rcases h with rfl | rfl <;> trivial
    · rcases h with rfl | rfl | rfl <;> trivial
  · intro op h
    simp only [List.mem_singleton] at h
    subst h; trivial
  · intro p hp
    simp only [allSent, sent, List.cons_append, List.nil_append, List.mem_cons, List.not_mem_nil, or_false] at hp
    rcases hp with rfl | rfl | rfl | rfl
    · exact ⟨⟨⟨by decide, by decide⟩, show c!"\n" ∉ b!"AAAB" by decide⟩, .inr (by decide +kernel)⟩
    · exact ⟨⟨.inl rfl, trivial⟩, .inr (by decide +kernel)⟩
    · exact ⟨⟨.inl rfl, trivial⟩, .inr (by decide +kernel)⟩
    · exact ⟨⟨.inl rfl, trivial⟩, .inr (by decide +kernel)⟩
  · refine ⟨[none, none, none, none, none, none, none, none, none], ?_⟩
    refine ⟨_, _, by with_unfolding_all rfl, by decide, by with_unfolding_all rfl, ?_⟩
    decide +kernel
  · exact ⟨[_, _], [_], [_], rfl, ⟨_, _, _, _, rfl, by with_unfolding_all rfl, _, _, _, _, rfl, by with_unfolding_all rfl, rfl⟩,
      ⟨_, _, _, _, rfl, by with_unfolding_all rfl, rfl⟩, ⟨_, _, _, _, rfl, by with_unfolding_all rfl, rfl⟩⟩

example (room : Nat) : Gets (lineOf line1) .raw room (.ok (.packet line1)) :=
  raw_gets room line1 _ _ rfl ⟨by decide, by decide, show (0 : Byte) ∉ b!"AAAB" by decide⟩

end Verif.Props.AdcConn
