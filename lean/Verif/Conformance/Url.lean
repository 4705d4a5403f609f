import Verif.Go.Url

/-!
# Instances: `url.Parse` and `URL.String`

The expected values are what package `net/url` gives.
-/

namespace Verif.Conformance.Url

open Verif Verif.Go Verif.Go.Url

example : (parse b!"dchub://us%20er:p@hub.org:411/a%2Fb/?x#y").map URL.string = some b!"dchub://us%20er:p@hub.org:411/a%2Fb/?x#y" := by decide +kernel
example : (parse b!"DCHUB://[fe80::1%25en%200]:411/a b").map URL.string = some b!"dchub://[fe80::1%25en%200]:411/a%20b" := by decide +kernel
example : parse b!"dchub://hub:port" = none ∧ parse b!"dchub://hu b" = none ∧ parse b!"dchub://hub/%zz" = none ∧ parse b!"a:b" ≠ none ∧
    parse b!"a_b:c" = none := by decide +kernel


/-! ## The parts of a URL -/

example : parse b!"dchub://nick:pw@hub.org:411/a/b?q=1#f" = some
    { URL.empty with scheme := b!"dchub", user := some (b!"nick", some b!"pw"), host := b!"hub.org:411", path := b!"/a/b", rawQuery := b!"q=1", fragment := b!"f" } := by
  decide +kernel
example : parse b!"ADCS://hub.org" = some { URL.empty with scheme := b!"adcs", host := b!"hub.org" } := by decide +kernel
example : parse b!"x1+y-z.2://h" = some { URL.empty with scheme := b!"x1+y-z.2", host := b!"h" } := by decide +kernel
example : parse b!"dchub://h?" = some { URL.empty with scheme := b!"dchub", host := b!"h", forceQuery := true } := by decide +kernel
example : parse b!"dchub://h?a?b" = some { URL.empty with scheme := b!"dchub", host := b!"h", rawQuery := b!"a?b" } := by decide +kernel
example : parse b!"dchub://h#a%20b" = some { URL.empty with scheme := b!"dchub", host := b!"h", fragment := b!"a b" } := by decide +kernel
example : parse b!"dchub://h/a%2Fb" = some { URL.empty with scheme := b!"dchub", host := b!"h", path := b!"/a/b", rawPath := b!"/a%2Fb" } := by decide +kernel
example : parse b!"dchub://h/a%20b" = some { URL.empty with scheme := b!"dchub", host := b!"h", path := b!"/a b" } := by decide +kernel
example : parse b!"dchub:///p" = some { URL.empty with scheme := b!"dchub", path := b!"/p" } := by decide +kernel
example : parse b!"h:411" ≠ none ∧ parse b!"1h:411" = none ∧ parse b!":411" = none ∧ parse b!"" = some URL.empty := by decide +kernel

/-! ## Users -/

example : parse b!"dchub://a@b@h" = some { URL.empty with scheme := b!"dchub", user := some (b!"a@b", none), host := b!"h" } := by decide +kernel
example : parse b!"dchub://a:b:c@h" = some { URL.empty with scheme := b!"dchub", user := some (b!"a", some b!"b:c"), host := b!"h" } := by decide +kernel
example : parse b!"dchub://@h" = some { URL.empty with scheme := b!"dchub", user := some ([], none), host := b!"h" } := by decide +kernel
example : parse b!"dchub://a%40b:c%3Ad@h" = some { URL.empty with scheme := b!"dchub", user := some (b!"a@b", some b!"c:d"), host := b!"h" } := by decide +kernel
example : parse b!"dchub://a<b@h" = none ∧ parse b!"dchub://a%4@h" = none := by decide +kernel
example : ({ URL.empty with scheme := b!"dchub", user := some (b!"a@b", some b!"c:/?d"), host := b!"h" } : URL).string = b!"dchub://a%40b:c%3A%2F%3Fd@h" := by
  decide +kernel
example : ({ URL.empty with scheme := b!"dchub", user := some (b!"a:b", none), host := b!"h" } : URL).string = b!"dchub://a%3Ab@h" := by decide +kernel

/-! ## Hosts -/

example : parseHost b!"h:0123456789" = some b!"h:0123456789" ∧ parseHost b!"h:" = some b!"h:" ∧ parseHost b!"h:12a" = none := by decide +kernel
example : parseHost b!"a:b:1" = some b!"a:b:1" ∧ parseHost b!"a:1:b" = none := by decide +kernel
example : parseHost b!"[::1]:0" = some b!"[::1]:0" ∧ parseHost b!"[::1]" = some b!"[::1]" ∧ parseHost b!"[::1" = none ∧ parseHost b!"[::1]x" = none := by
  decide +kernel
example : parseHost b!"[fe80::1%25a%20b]:9" = some b!"[fe80::1%a b]:9" ∧ parseHost b!"[fe80::1%25a%41]" = some b!"[fe80::1%aA]" ∧
    parseHost b!"[fe80::1%25a%00]" = none ∧ parseHost b!"[fe80::1]:9%25" = none := by decide +kernel
example : parseHost b!"h%C3%A9" = some [104, 0xC3, 0xA9] ∧ parseHost b!"h%25" = some b!"h%" ∧ parseHost b!"h%41" = none ∧ parseHost b!"h%7F" = none ∧
    parseHost b!"h%80" = some [104, 0x80] := by decide +kernel
example : ({ URL.empty with scheme := b!"dchub", host := [104, 0xC3, 0xA9, 32] } : URL).string = b!"dchub://h%C3%A9%20" := by decide +kernel

/-! ## Escapes -/

example : unescape .path b!"%4a%4A%fF" = some [0x4a, 0x4a, 0xff] ∧ unescape .path b!"%4" = none ∧ unescape .path b!"%g0" = none ∧
    unescape .path b!"a+b" = some b!"a+b" := by decide +kernel
example : escape .path [0, 9, 10, 0xab, 0xf0, 0x2f, 0x3f, 0x25] = b!"%00%09%0A%AB%F0/%3F%25" := by decide +kernel
example : escape .fragment b!"a b!()*?#\"" = b!"a%20b!()*?%23%22" := by decide +kernel

/-! ## Texts -/

example : (parse b!"dchub://h/a%2fb").map URL.string = some b!"dchub://h/a%2fb" := by decide +kernel
example : ({ URL.empty with scheme := b!"dchub", host := b!"h", path := b!"/c", rawPath := b!"/a%2Fb" } : URL).string = b!"dchub://h/c" := by decide +kernel
example : (parse b!"dchub://h?").map URL.string = some b!"dchub://h?" ∧ (parse b!"dchub://h#").map URL.string = some b!"dchub://h" := by decide +kernel
example : (parse b!"dchub://h?a=%zz#x%20y").map URL.string = some b!"dchub://h?a=%zz#x%20y" := by decide +kernel
example : (parse b!"dchub://h#a b").map URL.string = some b!"dchub://h#a%20b" := by decide +kernel
example : (parse b!"magnet:?xt=1").map URL.string = some b!"magnet:?xt=1" ∧ (parse b!"a:b/c").map URL.string = some b!"a:b/c" := by decide +kernel
example : (parse b!"//h/p").map URL.string = some b!"//h/p" ∧ (parse b!"p/q").map URL.string = some b!"p/q" ∧ parse b!"p:/q:r" ≠ none := by decide +kernel
example : ({ URL.empty with path := b!"a:b" } : URL).string = b!"./a:b" ∧ ({ URL.empty with host := b!"h", path := b!"p" } : URL).string = b!"//h/p" := by
  decide +kernel

end Verif.Conformance.Url
