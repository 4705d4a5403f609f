import Verif.Go.Unicode

/-!
# Groups of file extensions: `adc/search.go`
-/

namespace Verif.Go

open Verif.Spec

/-- The case tables of package `unicode`: `unicode.ToLower` of runes outside of ASCII.  Only two of these runes have a lower case form
within ASCII: U+0130 (I with dot above) and U+212A (Kelvin sign). -/
class LowerCase where
  lower : Nat → Nat
  dotted : lower 0x130 = 0x69
  kelvin : lower 0x212A = 0x6B
  other : ∀ r, 0x80 ≤ r → r ≠ 0x130 → r ≠ 0x212A → 0x80 ≤ lower r

/-- `unicode.ToLower`. -/
def lowerRune [LowerCase] (r : Nat) : Nat :=
  if r < 0x80 then if 0x41 ≤ r ∧ r ≤ 0x5A then r + 32 else r else LowerCase.lower r

/-- `strings.ToLower`: `Map` writes U+FFFD for an invalid byte.  The special case for ASCII text gives the same. -/
def toLower [LowerCase] (s : Bytes) : Bytes :=
  (runes s).flatMap fun
    | some r => encodeRune (lowerRune r)
    | none => utf8 runeError

end Verif.Go

namespace Verif.Adc

open Verif.Go

/-- `ExtGroup`, `adc/search.go:118`: an `int` used as a set of bits. -/
abbrev ExtGroup := BitVec 64

/-- `adc/search.go:69-77`. -/
def extAudio : ExtGroup := 0x01
def extArch : ExtGroup := 0x02
def extDoc : ExtGroup := 0x04
def extExe : ExtGroup := 0x08
def extImage : ExtGroup := 0x10
def extVideo : ExtGroup := 0x20

/-- `extGroups`, `adc/search.go:79-116`. -/
def extGroups : List (Bytes × ExtGroup) :=
  [ (b!"ape", extAudio), (b!"flac", extAudio), (b!"m4a", extAudio), (b!"mid", extAudio), (b!"mp3", extAudio),
    (b!"mpc", extAudio), (b!"ogg", extAudio), (b!"ra", extAudio), (b!"wav", extAudio), (b!"wma", extAudio),
    (b!"7z", extArch), (b!"ace", extArch), (b!"arj", extArch), (b!"bz2", extArch), (b!"gz", extArch), (b!"lha", extArch),
    (b!"lzh", extArch), (b!"rar", extArch), (b!"tar", extArch), (b!"tz", extArch), (b!"z", extArch), (b!"zip", extArch),
    (b!"doc", extDoc), (b!"docx", extDoc), (b!"htm", extDoc), (b!"html", extDoc), (b!"nfo", extDoc), (b!"odf", extDoc),
    (b!"odp", extDoc), (b!"ods", extDoc), (b!"odt", extDoc), (b!"pdf", extDoc), (b!"ppt", extDoc), (b!"pptx", extDoc),
    (b!"rtf", extDoc), (b!"txt", extDoc), (b!"xls", extDoc), (b!"xlsx", extDoc), (b!"xml", extDoc), (b!"xps", extDoc),
    (b!"app", extExe), (b!"bat", extExe), (b!"cmd", extExe), (b!"com", extExe), (b!"dll", extExe), (b!"exe", extExe),
    (b!"jar", extExe), (b!"msi", extExe), (b!"ps1", extExe), (b!"vbs", extExe), (b!"wsf", extExe),
    (b!"bmp", extImage), (b!"cdr", extImage), (b!"eps", extImage), (b!"gif", extImage), (b!"ico", extImage),
    (b!"img", extImage), (b!"jpeg", extImage), (b!"jpg", extImage), (b!"png", extImage), (b!"ps", extImage),
    (b!"psd", extImage), (b!"sfw", extImage), (b!"tga", extImage), (b!"tif", extImage), (b!"webp", extImage),
    (b!"3gp", extVideo), (b!"asf", extVideo), (b!"asx", extVideo), (b!"avi", extVideo), (b!"divx", extVideo),
    (b!"flv", extVideo), (b!"mkv", extVideo), (b!"mov", extVideo), (b!"mp4", extVideo), (b!"mpeg", extVideo),
    (b!"mpg", extVideo), (b!"ogm", extVideo), (b!"pxp", extVideo), (b!"qt", extVideo), (b!"rm", extVideo),
    (b!"rmvb", extVideo), (b!"swf", extVideo), (b!"vob", extVideo), (b!"webm", extVideo), (b!"wmv", extVideo) ]

/-- Lookup in the map: zero for other words. -/
def extGroup (ext : Bytes) : ExtGroup :=
  match extGroups.find? (fun e => e.1 == ext) with
  | some e => e.2
  | none => 0

/-- `ExtGroup.Has`, `adc/search.go:120`. -/
def ExtGroup.has (t st : ExtGroup) : Bool := t &&& st != 0

/-- The part after the last dot, `adc/search.go:126-128`. -/
def afterDot (ext : Bytes) : Bytes :=
  match lastIndexByte ext c!"." with
  | some i => ext.drop (i + 1)
  | none => ext

/-- `ExtGroup.Matches`, `adc/search.go:122-131`. -/
def ExtGroup.matches [LowerCase] (t : ExtGroup) (ext : Bytes) : Bool :=
  if t = 0 then true else t.has (extGroup (toLower (afterDot ext)))

end Verif.Adc
