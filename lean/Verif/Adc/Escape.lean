import Verif.Go.Slices

/-!
# Text escaping of ADC (`adc/marshal.go:20-31`)
-/

namespace Verif.Adc

open Verif.Go

/-- `escaper`, `adc/marshal.go:21`: a replacer of single bytes. -/
def escapeByte (c : Byte) : Bytes :=
  if c = c!"\\" then b!"\\\\" else if c = c!" " then b!"\\s" else if c = c!"\n" then b!"\\n" else [c]

/-- `escape`, `adc/marshal.go:25-27`. -/
def escape : Bytes → Bytes
  | [] => []
  | c :: s => escapeByte c ++ escape s

/-- `unescape`, `adc/marshal.go:29-31`: the replacer goes from left to right and replaces the first sequence that matches. -/
def unescape : Bytes → Bytes
  | [] => []
  | [c] => [c]
  | c :: d :: s =>
    if c = c!"\\" ∧ d = c!"s" then c!" " :: unescape s
    else if c = c!"\\" ∧ d = c!"n" then c!"\n" :: unescape s
    else if c = c!"\\" ∧ d = c!"\\" then c!"\\" :: unescape s
    else c :: unescape (d :: s)

end Verif.Adc
