import Verif.Addr.Addr
import Verif.Go.Url

/-!
# Hub addresses with the real `net/url`

The parameter of `Verif.Addr` is filled in with the model of `url.Parse` and `URL.String` of the standard library (`Verif.Go.Url`).
-/

namespace Verif.Addr

open Verif.Go

/-- `net/url`: all errors of `Parse` are one; `rest` is the whole URL, whose scheme, host and path are replaced by the ones set by
the code before `String` looks at it. -/
def goUrl : UrlLib Url.URL where
  parse s := match Url.parse s with
    | none => .error (.other 98)
    | some u => .ok ⟨u.scheme, u.host, u.path, u⟩
  str u := { u.rest with scheme := u.scheme, host := u.host, path := u.path }.string

/-- The `*url.URL` that the code hands out. -/
def Url.full (u : Url Url.URL) : Url.URL := { u.rest with scheme := u.scheme, host := u.host, path := u.path }

end Verif.Addr
