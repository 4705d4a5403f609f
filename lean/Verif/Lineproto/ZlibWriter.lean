import Verif.Go.Deflate
import Verif.Lineproto.Writer

/-!
# `compress/zlib` as the compressor of the writer
-/

namespace Verif.Lineproto

open Verif.Go.Inflate Verif.Go.Deflate

/-- The choices of a compressor at a level, given the data in earlier blocks (last byte first) and the data that waits. -/
structure ZPlan where
  /-- `compressor.write`: the blocks it makes now, and the data that still waits. -/
  cut : Int → Bytes → Bytes → List Block × Bytes
  /-- `compressor.syncFlush`, `compressor.close`: blocks for all the data. -/
  all : Int → Bytes → Bytes → List Block

/-- The blocks can be expressed and say the data. -/
structure ZPlan.Ok (P : ZPlan) : Prop where
  cutOk : ∀ lvl h p, blocksOk h (P.cut lvl h p).1
  cutData : ∀ lvl h p, (P.cut lvl h p).2.reverse ++ evalAll h (P.cut lvl h p).1 = p.reverse ++ h
  allOk : ∀ lvl h p, blocksOk h (P.all lvl h p)
  allData : ∀ lvl h p, evalAll h (P.all lvl h p) = p.reverse ++ h

/-- `zlib.Writer`: level, whether the header is written, bits of the last, incomplete byte, data in earlier blocks (last byte first),
data that waits. -/
structure ZComp where
  lvl : Int
  head : Bool
  acc : List Bool
  hist : Bytes
  pend : Bytes

/-- compress/zlib/writer.go, `writeHeader`: 0x78 and the byte for the level. -/
def zlibHead (lvl : Int) : Bytes :=
  [0x78, if lvl = -2 ∨ lvl = 0 ∨ lvl = 1 then 0x01 else if 2 ≤ lvl ∧ lvl ≤ 5 then 0x5e
    else if lvl = 6 ∨ lvl = -1 then 0x9c else 0xda]

/-- The header, if it is not written yet. -/
def ZComp.header (d : ZComp) : Bytes := if d.head then [] else zlibHead d.lvl

/-- Some bits are written: those that complete bytes go out. -/
def ZComp.put (d : ZComp) (bs : List Bool) (hist pend : Bytes) : ZComp × List Bytes × Option Err :=
  ({ d with head := true, acc := packRest (d.acc ++ bs), hist := hist, pend := pend }, [d.header, packBytes (d.acc ++ bs)], none)

/-- compress/zlib/writer.go, `Write`. -/
def ZComp.write (P : ZPlan) (d : ZComp) (p : Bytes) : ZComp × List Bytes × Option Err :=
  d.put (blocksBits d.acc.length (P.cut d.lvl d.hist (d.pend ++ p)).1) (evalAll d.hist (P.cut d.lvl d.hist (d.pend ++ p)).1)
    (P.cut d.lvl d.hist (d.pend ++ p)).2

/-- compress/zlib/writer.go, `Flush`: all the data, then an empty stored block. -/
def ZComp.flush (P : ZPlan) (d : ZComp) : ZComp × List Bytes × Option Err :=
  d.put (blocksBits d.acc.length (P.all d.lvl d.hist d.pend ++ [.stored []])) (evalAll d.hist (P.all d.lvl d.hist d.pend)) []

/-- compress/zlib/writer.go, `Close`: all the data, an empty stored block that is the last one, and the checksum. -/
def ZComp.close (P : ZPlan) (d : ZComp) : ZComp × List Bytes × Option Err :=
  let bs := blocksBits d.acc.length (P.all d.lvl d.hist d.pend)
  let h := evalAll d.hist (P.all d.lvl d.hist d.pend)
  d.put (bs ++ (Block.stored []).bits (d.acc.length + bs.length) true ++ dataBits (sumBytes (adler32 h.reverse))) h []

/-- `compress/zlib`, the compressor used in lineproto/writer.go:97-125: levels from -2 to 9. -/
def zlibDeflater (P : ZPlan) : Deflater ZComp where
  new lvl := if -2 ≤ lvl ∧ lvl ≤ 9 then .ok ⟨lvl, false, [], [], []⟩ else .error (.other 33)
  reset d := ⟨d.lvl, false, [], [], []⟩
  write := ZComp.write P
  flush := ZComp.flush P
  close := ZComp.close P

/-- A plan: the data waits until it is flushed, and becomes one block of literals (none if there is no data). -/
def literalPlan : ZPlan where
  cut _ _ p := ([], p)
  all _ _ p := if p.isEmpty then [] else [.fixed (p.map .lit)]

end Verif.Lineproto
