import Verif.Tiger.Tree
import Verif.Tiger.HashVar
import Verif.Tiger.Function
import Verif.Keyprint.PemFile
import Verif.Go.Sha256

/-!
# The tests of `tiger` and `keyprint`, with the hash functions themselves

Cases of `tiger/tth_test.go:9-88` and `keyprint/keyprint_test.go:10-37`.
-/

namespace Verif.Conformance.Hashes

open Verif.Go Verif.Tiger Verif.Keyprint Verif.Lineproto

/-- `HashBytes` with Tiger. -/
def H (b : Bytes) : Hash := ⟨tiger b, tiger_length b⟩

/-- `bytes.NewReader` of `n` letters. -/
def letters (n : Nat) : Src := if n = 0 then [] else [⟨List.replicate n c!"a", none⟩]

/-- The text of a result. -/
def shown : Res Hash → Bytes
  | .ok h => h.string
  | _ => b!"error"

/-- `TestTTHLeaves`, `TestTTHLeavesToTreeHash` and `TestTTH` for a case. -/
def Case (n : Nat) (leaves : List Bytes) (root : Bytes) : Prop :=
  ((treeLeaves H (letters n)).1.map Hash.string, (treeLeaves H (letters n)).2) = (leaves, none) ∧
  shown (leavesTreeHash H (treeLeaves H (letters n)).1) = root ∧ shown (treeHash H (letters n)) = root

instance (n : Nat) (l : List Bytes) (r : Bytes) : Decidable (Case n l r) := by unfold Case; infer_instance

example : Case 0 [b!"LWPNACQDBZRYXW3VHJVCJ64QBZNGHOHHHZWCLNQ"] b!"LWPNACQDBZRYXW3VHJVCJ64QBZNGHOHHHZWCLNQ" := by decide +kernel
example : Case 1 [b!"CZQUWH3IYXBF5L3BGYUGZHASSMXU647IP2IKE4Y"] b!"CZQUWH3IYXBF5L3BGYUGZHASSMXU647IP2IKE4Y" := by decide +kernel
example : Case 5 [b!"ELXBTR33AWAAEKEVWRXEQ3446IL7KGCTXMWA4AA"] b!"ELXBTR33AWAAEKEVWRXEQ3446IL7KGCTXMWA4AA" := by decide +kernel
example : Case 24 [b!"K56WCQPI62DYXXDY4AZ7LRUFDQOTIZRAPEKRTRI"] b!"K56WCQPI62DYXXDY4AZ7LRUFDQOTIZRAPEKRTRI" := by decide +kernel
example : Case 25 [b!"BNCXPH7SJ5Z4HTKEYMJXFL7QJUXLZFZM4JDRQYY"] b!"BNCXPH7SJ5Z4HTKEYMJXFL7QJUXLZFZM4JDRQYY" := by decide +kernel
example : Case 64 [b!"LKOML52BOHG43N2P5MNZ3BDIAKNYO3C22WQMJGI"] b!"LKOML52BOHG43N2P5MNZ3BDIAKNYO3C22WQMJGI" := by decide +kernel
example : Case 100 [b!"MI3GUSIV63KCZS4IL3PEZD6AQADVO6CMKPITPTA"] b!"MI3GUSIV63KCZS4IL3PEZD6AQADVO6CMKPITPTA" := by decide +kernel
example : Case 127 [b!"YKSDLGFJM7HNVU3ESUVCOT4JGPB2NWL3WIMPLZA"] b!"YKSDLGFJM7HNVU3ESUVCOT4JGPB2NWL3WIMPLZA" := by decide +kernel
example : Case 128 [b!"3ZTFBW4Y65OGGNXCM776DYN5WJ6SZLWR7WMC4NA"] b!"3ZTFBW4Y65OGGNXCM776DYN5WJ6SZLWR7WMC4NA" := by decide +kernel
example : Case 256 [b!"ZZK5ZBTLKGLY7SFWEHY5VGYYDQHZG56NIUQ6IXI"] b!"ZZK5ZBTLKGLY7SFWEHY5VGYYDQHZG56NIUQ6IXI" := by decide +kernel
example : Case 1022 [b!"PT2BL57H4JJ5LHXBDA6CJ5KEOO5XEKNIFYINE7I"] b!"PT2BL57H4JJ5LHXBDA6CJ5KEOO5XEKNIFYINE7I" := by decide +kernel
example : Case 1023 [b!"YBJDV4HQU6LDJZMP36DEUZ7MMNXA6TBLMOX55PI"] b!"YBJDV4HQU6LDJZMP36DEUZ7MMNXA6TBLMOX55PI" := by decide +kernel
example : Case 1024 [b!"BR4BVJBMHDFVCFI4WBPSL63W5TWXWVBSC574BLI"] b!"BR4BVJBMHDFVCFI4WBPSL63W5TWXWVBSC574BLI" := by decide +kernel
example : Case 1025 [b!"BR4BVJBMHDFVCFI4WBPSL63W5TWXWVBSC574BLI", b!"CZQUWH3IYXBF5L3BGYUGZHASSMXU647IP2IKE4Y"] b!"CDYY2OW6F6DTGCH3Q6NMSDLSRV7PNMAL3CED3DA" := by decide +kernel

/-- The file of `TestFromFile`. -/
def file : Bytes :=
  b!"-----BEGIN CERTIFICATE-----\n" ++
  b!"MIIDADCCAeigAwIBAgIRANQAK+zMKkAAleGstpikPicwDQYJKoZIhvcNAQELBQAw\n" ++
  b!"ETEPMA0GA1UEChMGR28gSHViMB4XDTE5MDIwODE1MjIxNloXDTIwMDEzMDE1MjIx\n" ++
  b!"NlowETEPMA0GA1UEChMGR28gSHViMIIBIjANBgkqhkiG9w0BAQEFAAOCAQ8AMIIB\n" ++
  b!"CgKCAQEAz5ferpAcWhT705lz9IkeOemj25lk8Tnxiwl1HOYA21PFdtjtOeflOjGF\n" ++
  b!"GoQQyPo5eKq0nFQrcBX/5vrMPgu0TAxeeFDklV/qBxnYchzk34v+dZqDx3s7flVh\n" ++
  b!"Ap4/DhUIFDS3KGpv3aI1Ib9yNUnTHHvKJajIiLovlwIHv9w+uyK7yre8jdSHQ3qp\n" ++
  b!"m4TadSrmj1rhurS0Lw7QAvLqlRyquzTo3BRvvVDt3Ych9Uc8xgpVrri6CxVUR7hb\n" ++
  b!"ikLaAa4/uHsNT4FXheyrrwM2sPj8ffkqevW6Igrl0MG5wV6RWRrQjQLhxu4Gt5Zu\n" ++
  b!"JhNN/mo4KOO5gLyl2aRK8L2MgYnMPwIDAQABo1MwUTAOBgNVHQ8BAf8EBAMCAoQw\n" ++
  b!"HQYDVR0lBBYwFAYIKwYBBQUHAwEGCCsGAQUFBwMCMA8GA1UdEwEB/wQFMAMBAf8w\n" ++
  b!"DwYDVR0RBAgwBocEfwAAATANBgkqhkiG9w0BAQsFAAOCAQEAS8a8y3U88X//jvvu\n" ++
  b!"ZM87JXjAD9CmV5X6LTMmGOobXn9RxQJdTQfXUkN1PX5FXLog0IBp/jvrZQUIi4b2\n" ++
  b!"oyO6pqpAxrdAKeCNaqQK4c4nwltVoUuHwujr6H/7A0xZvZJ8vmhBGBiyS51NSREN\n" ++
  b!"SD8jnos2YZwNzPGzwCea2BjpTkH+wm/tMbFuh8UPVe8NhxlQlVRUkoHRpjJn2e/V\n" ++
  b!"+y8Paky4k0h99HXw51Kbq4hVoHGbdrIj3jCEXL6/6sxT+7m1Hg205ouPDSKNO/2V\n" ++
  b!"Xd0iUCmoX6xJlIF8lto1wjK6Dg2/4q/vKEMv85+54veEQPLC9I/Ze8YxemBNpWBA\n" ++
  b!"FQfn1A==\n" ++
  b!"-----END CERTIFICATE-----\n"

deriving instance DecidableEq for Except

/-- `TestFromFile`. -/
example : fromPemFile Sha256.sum256 file = .ok [b!"SHA256/NDH32RHLIEZCAIJQIAABJPHOHUJSL5UZMWXHI6HALQEW65LN3TLA"] := by decide +kernel

end Verif.Conformance.Hashes
