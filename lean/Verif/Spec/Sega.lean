import Verif.Go.Basic

/-!
# The extension SEGA of ADC (specification)

Groups of file extensions; bit `i` of a search asks for group `i`.
-/

namespace Verif.Spec

/-- The groups in the order of their bits: audio, compressed archives, documents, executables, pictures, videos. -/
def segaGroups : List (List Bytes) :=
  [ [b!"ape", b!"flac", b!"m4a", b!"mid", b!"mp3", b!"mpc", b!"ogg", b!"ra", b!"wav", b!"wma"],
    [b!"7z", b!"ace", b!"arj", b!"bz2", b!"gz", b!"lha", b!"lzh", b!"rar", b!"tar", b!"tz", b!"z", b!"zip"],
    [b!"doc", b!"docx", b!"htm", b!"html", b!"nfo", b!"odf", b!"odp", b!"ods", b!"odt", b!"pdf", b!"ppt", b!"pptx",
      b!"rtf", b!"txt", b!"xls", b!"xlsx", b!"xml", b!"xps"],
    [b!"app", b!"bat", b!"cmd", b!"com", b!"dll", b!"exe", b!"jar", b!"msi", b!"ps1", b!"vbs", b!"wsf"],
    [b!"bmp", b!"cdr", b!"eps", b!"gif", b!"ico", b!"img", b!"jpeg", b!"jpg", b!"png", b!"ps", b!"psd", b!"sfw",
      b!"tga", b!"tif", b!"webp"],
    [b!"3gp", b!"asf", b!"asx", b!"avi", b!"divx", b!"flv", b!"mkv", b!"mov", b!"mp4", b!"mpeg", b!"mpg", b!"ogm",
      b!"pxp", b!"qt", b!"rm", b!"rmvb", b!"swf", b!"vob", b!"webm", b!"wmv"] ]

/-- `e` is the extension of a file name: what follows the last dot, or the whole name. -/
def IsExtension (e name : Bytes) : Prop := c!"." ∉ e ∧ (e = name ∨ ∃ pre, name = pre ++ c!"." :: e)

/-- The rune `r` is a way to write the letter or digit `c`: itself or in upper case. -/
def WritesChar (r : Nat) (c : Byte) : Prop :=
  r = c.toNat ∨ (0x61 ≤ c.toNat ∧ c.toNat ≤ 0x7A ∧ r + 32 = c.toNat) ∨ (r = 0x130 ∧ c.toNat = 0x69) ∨ (r = 0x212A ∧ c.toNat = 0x6B)

end Verif.Spec
