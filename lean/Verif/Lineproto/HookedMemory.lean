import Verif.Lineproto.Memory

/-!
# Line hooks that write to memory

In `Verif.Lineproto.Memory` a hook is a function of the bytes of the line.  A hook of the program gets the line itself, a slice of the
array the reader collects it in.  It may write to it, keep it, write to other arrays, and call methods of the reader.  Here the same loop
is modelled with such hooks.  A hook does not register other hooks.
-/

namespace Verif.Lineproto.Mem

open Verif.Lineproto

/-- A hook, `reader.go:139`: it gets the line, the state of the program, the reader and the memory, and leaves new ones. The first
argument is the fuel for what it calls. -/
abbrev LineHook (σ Z : Type) := Nat → Slice → σ → MReader Z → Heap → Exec (Hook × σ × MReader Z × Heap)

variable {σ Z : Type}

/-- Reader.go:214-222: the hooks run in the order of registration, all on the same slice; the first that does not accept decides. -/
def runLineHooks (fuel : Nat) (line : Slice) : List (LineHook σ Z) → σ → MReader Z → Heap → Exec (Hook × σ × MReader Z × Heap)
  | [], s, r, h => .val (.accept, s, r, h)
  | f :: fs, s, r, h =>
    match f fuel line s r h with
    | .panic => .panic
    | .timeout => .timeout
    | .val (.accept, s1, r1, h1) => runLineHooks fuel line fs s1 r1 h1
    | .val (.drop, s1, r1, h1) => .val (.drop, s1, r1, h1)
    | .val (.fail e, s1, r1, h1) => .val (.fail e, s1, r1, h1)

/-- Reader.go:195-225, the loop of `ReadLine`; without a reader `r.cur.Scan` panics.  What is returned is the slice the hooks got, not
the field `line` of the reader, which a hook may have changed; what is emptied after a dropped line is the field. -/
def MReader.hookedLoop (I : Inflater Z) (W : World) (fs : List (LineHook σ Z)) :
    Nat → σ → MReader Z → Heap → Exec ((Option Slice × Option Err) × σ × MReader Z × Heap)
  | 0, _, _, _ => .timeout
  | fuel + 1, s, r, h =>
    match r.orig with
    | none => .panic
    | some b =>
      if r.maxLine > 0 ∧ (r.line.len : Int) ≥ r.maxLine then
        .val ((none, some .bufferExhausted), s, r, h)
      else
        match r.scan I W fuel b h with
        | .panic => .panic
        | .timeout => .timeout
        | .val ((pref, more, err), r1, h1) =>
          if err = some .eof ∧ r1.zlibOn = true then
            MReader.hookedLoop I W fs fuel s { r1 with curZ := false, zlibOn := false } h1
          else
            match append W h1 r1.line pref with
            | (line, h2) =>
              match err with
              | some e => .val ((some line, some e), s, { r1 with line }, h2)
              | none =>
                if more then MReader.hookedLoop I W fs fuel s { r1 with line } h2
                else
                  match runLineHooks fuel line fs s { r1 with line } h2 with
                  | .panic => .panic
                  | .timeout => .timeout
                  | .val (.accept, s3, r3, h3) => .val ((some line, none), s3, r3, h3)
                  | .val (.drop, s3, r3, h3) => MReader.hookedLoop I W fs fuel s3 { r3 with line.len := 0 } h3
                  | .val (.fail e, s3, r3, h3) => .val ((none, some e), s3, r3, h3)

/-- Reader.go:188-226, `ReadLine`. -/
def MReader.hookedLine (I : Inflater Z) (W : World) (fs : List (LineHook σ Z)) (fuel : Nat) (s : σ) (r : MReader Z) (h : Heap) :
    Exec ((Option Slice × Option Err) × σ × MReader Z × Heap) :=
  match r.orig with
  | none => .val ((none, some .readerClosed), s, r, h)
  | some _ => MReader.hookedLoop I W fs fuel s { r with line.len := 0 } h

end Verif.Lineproto.Mem
