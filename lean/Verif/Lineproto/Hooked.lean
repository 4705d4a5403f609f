import Verif.Lineproto.Reader

/-!
# Line hooks that keep state or act on the reader

In `Verif.Lineproto.Reader` a hook is a function of the line.  A hook of the program is a closure: it has a state, which it may
share with other hooks, and it may call methods of the reader it is registered at, such as `EnableZlib`, `SetMaxLine`, `Read` or
`Close`.  Here the same loop is modelled with such hooks.  A hook may not call `ReadLine`: the line it was given would be
overwritten, which is not modelled here.  Nor may it register other hooks.
-/

namespace Verif.Lineproto

/-- A hook, `reader.go:139`: it gets the line, the state of the program and the reader, and leaves a new state and a new reader. The
first argument is the fuel for what it calls. -/
abbrev DHook (σ Z : Type) := Nat → Bytes → σ → Reader Z → Exec (Hook × σ × Reader Z)

variable {σ Z : Type}

/-- Reader.go:214-222: the hooks run in the order of registration; the first that does not accept decides. -/
def runDHooks (fuel : Nat) (line : Bytes) : List (DHook σ Z) → σ → Reader Z → Exec (Hook × σ × Reader Z)
  | [], s, r => .val (.accept, s, r)
  | h :: hs, s, r =>
    match h fuel line s r with
    | .panic => .panic
    | .timeout => .timeout
    | .val (.accept, s1, r1) => runDHooks fuel line hs s1 r1
    | .val (.drop, s1, r1) => .val (.drop, s1, r1)
    | .val (.fail e, s1, r1) => .val (.fail e, s1, r1)

/-- Reader.go:195-225, the loop of `ReadLine`; without a reader `r.cur.Scan` panics. -/
def Reader.hookedLoop (I : Inflater Z) (hs : List (DHook σ Z)) :
    Nat → Bytes → σ → Reader Z → Exec ((Bytes × Option Err) × σ × Reader Z)
  | 0, _, _, _ => .timeout
  | fuel + 1, line, s, r =>
    match r.orig with
    | none => .panic
    | some b =>
      if r.maxLine > 0 ∧ (line.length : Int) ≥ r.maxLine then
        .val (([], some .bufferExhausted), s, r)
      else
        match r.scan I fuel b with
        | .panic => .panic
        | .timeout => .timeout
        | .val ((pref, more, err), r1) =>
          if err = some .eof ∧ r1.zlibOn = true then
            Reader.hookedLoop I hs fuel line s { r1 with curZ := false, zlibOn := false }
          else
            let line' := line ++ pref
            match err with
            | some e => .val ((line', some e), s, r1)
            | none =>
              if more then Reader.hookedLoop I hs fuel line' s r1
              else
                match runDHooks fuel line' hs s r1 with
                | .panic => .panic
                | .timeout => .timeout
                | .val (.accept, s2, r2) => .val ((line', none), s2, r2)
                | .val (.drop, s2, r2) => Reader.hookedLoop I hs fuel [] s2 r2
                | .val (.fail e, s2, r2) => .val (([], some e), s2, r2)

/-- Reader.go:188-226, `ReadLine`. -/
def Reader.hookedLine (I : Inflater Z) (fuel : Nat) (hs : List (DHook σ Z)) (s : σ) (r : Reader Z) :
    Exec ((Bytes × Option Err) × σ × Reader Z) :=
  match r.orig with
  | none => .val (([], some .readerClosed), s, r)
  | some _ => Reader.hookedLoop I hs fuel [] s r

end Verif.Lineproto
