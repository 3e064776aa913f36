import Verif.Mara.LookupProps
/-!
# Which answer a question gets: where the code does not do what one would expect

Each theorem shows a behaviour of the code as it is.
-/

namespace Mara
namespace Lookup

open Dw (Res)
open Spec

variable {ρ : Type}

/-- The class of a question is not checked: the two halves of the test are joined by "and", so every class below 256
is answered like IN (MaraDNS.c:2626-2635). -/
theorem class_not_checked {raw raw' : Js} (hs : Js.Ok raw) (hs' : Js.Ok raw') (cfg : Cfg) (h : Hash ρ) {hd : Header}
    (ho : Ordinary hd) {q : Name} (hq : LabelsOk q) (hl : (encName q).length ≤ 255) {t c : Nat} (ht : t < 65536)
    (hc : c < 256) {rest : List UInt8}
    (hb : raw.contents = queryBytes hd q t 1 rest) (hb' : raw'.contents = queryBytes hd q t c rest) :
    procQuery cfg h raw' = procQuery cfg h raw := by
  rw [front hs cfg h ho hq hl ht hb, front hs' cfg h ho hq hl ht hb']
  have e : UInt8.ofNat (c / 256) = 0 := by rw [Nat.div_eq_of_lt hc]; rfl
  rw [e]
  simp

example : procQuery {} (ofTable exTable) (exQuery [[97], [99]] 1 3) = .ok (.success 3 true) := by decide +kernel

/-- Names of 254 and 255 bytes, which RFC 1035 allows, cannot be asked for: the server fails, whatever it has. -/
theorem long_names_fail {raw : Js} (hs : Js.Ok raw) {cfg : Cfg} (hn : cfg.noFingerprint = false) (h : Hash ρ) {hd : Header}
    (ho : Ordinary hd) {q : Name} (hq : LabelsOk q) (h1 : 254 ≤ (encName q).length) (h2 : (encName q).length ≤ 255)
    {t c : Nat} (ht : t < 65536) {rest : List UInt8} (hb : raw.contents = queryBytes hd q t c rest) :
    procQuery cfg h raw = .ok (.error 2 true) := by
  rw [front hs cfg h ho hq h2 ht hb, if_pos (by omega)]
  unfold quiet
  rw [hn]
  rfl

example : (encName [List.replicate 63 97, List.replicate 63 97, List.replicate 63 97, List.replicate 61 97]).length = 255 := by
  decide +kernel

/-- A question of the type CAA (257) for the root makes the server fail, since the two bytes of the type are taken for
a label (MaraDNS.c:2034-2064). -/
theorem root_caa_fails : procQuery {} (ofTable exTable) (exQuery [] 257 1) = .ok (.error 2 true) := by decide +kernel

/-- A star CNAME more than one label up is not found, though star records of other types are
(MaraDNS.c:3277-3306): with `*.b.c. CNAME`, a question for `x.b.c.` is answered, one for `y.x.b.c.` is not. -/
theorem star_cname_above_lost :
    procQuery {} (ofTable exTable) (exQuery [[120], [98], [99]] 1 1) = .ok (.star 6 [1, 120, 1, 98, 1, 99, 0, 0, 5] 0) ∧
    procQuery {} (ofTable exTable) (exQuery [[121], [120], [98], [99]] 1 1) = .ok (.negative 2 0) ∧
    procQuery { bindStar := 0 } (ofTable exTable) (exQuery [[121], [120], [98], [99]] 1 1) =
      .ok (.star 6 [1, 121, 1, 120, 1, 98, 1, 99, 0, 0, 5] 0) := by decide +kernel

/-- With `bind_star_handling` 0 a name that exists is denied if it is asked for in capitals: the last look-up
uses the name as it came (MaraDNS.c:1755-1983). -/
theorem capitals_denied :
    procQuery { bindStar := 0 } (ofTable exTable) (exQuery [[97], [99]] 15 1) = .ok (.negative 2 0) ∧
    procQuery { bindStar := 0 } (ofTable exTable) (exQuery [[65], [99]] 15 1) = .ok (.negative 2 3) := by decide +kernel

/-- A server with the zone `c.`, a star TXT record at `*.b.c.` and a star CNAME at `*.c.` -/
def strictTable : List (List UInt8 × Val Nat) :=
  [([1, 99, 0, 0, 2], .rr true 1), ([1, 99, 0, 0, 6], .rr true 2), ([1, 99, 0, 0, 255], .list),
   ([95, 1, 98, 1, 99, 0, 0, 16], .rr true 5), ([95, 1, 98, 1, 99, 0, 0, 255], .list)]

/-- With `bind_star_handling` 2 a name that has a TXT record, by a star record, is said not to exist when it is
asked for another type: `always_not_there` is cleared once a name above exists (MaraDNS.c:3200-3213). -/
theorem strict_denies :
    procQuery { bindStar := 2 } (ofTable strictTable) (exQuery [[120], [98], [99]] 16 1) =
      .ok (.star 5 [1, 120, 1, 98, 1, 99, 0, 0, 16] 0) ∧
    procQuery { bindStar := 2 } (ofTable strictTable) (exQuery [[120], [98], [99]] 1 1) = .ok (.negative 2 3) ∧
    procQuery { bindStar := 1 } (ofTable strictTable) (exQuery [[120], [98], [99]] 1 1) = .ok (.negative 2 0) := by
  decide +kernel

/-- A server with the zone `c.` and a star CNAME at `*.c.` -/
def cnameTable : List (List UInt8 × Val Nat) :=
  [([1, 99, 0, 0, 2], .rr true 1), ([1, 99, 0, 0, 6], .rr true 2), ([1, 99, 0, 0, 255], .list),
   ([95, 1, 99, 0, 0, 5], .rr true 6), ([95, 1, 99, 0, 0, 255], .list)]

/-- With `bind_star_handling` 2 a star CNAME in a zone is never used: the name it stands below exists
(MaraDNS.c:3156-3168). -/
theorem strict_star_cname_lost :
    procQuery { bindStar := 1 } (ofTable cnameTable) (exQuery [[120], [99]] 1 1) = .ok (.star 6 [1, 120, 1, 99, 0, 0, 5] 0) ∧
    procQuery { bindStar := 2 } (ofTable cnameTable) (exQuery [[120], [99]] 1 1) = .ok (.negative 2 0) := by
  decide +kernel

/-- Records below a delegation (its glue) are sent as an answer, and marked as authoritative, instead of the
referral. -/
theorem glue_answered :
    procQuery {} (ofTable exTable) (exQuery [[110], [100], [99]] 1 1) = .ok (.success 7 true) ∧
    procQuery {} (ofTable exTable) (exQuery [[110], [100], [99]] 28 1) = .ok (.success 4 false) := by decide +kernel

/-- A server with the default zone `*.`, in which `www` exists. -/
def defaultTable : List (List UInt8 × Val Nat) :=
  [([95, 0, 6], .rr true 2), ([1, 119, 95, 0, 1], .rr true 8)]

/-- In the default zone capitals matter (MaraDNS.c:3312-3316). -/
theorem default_zone_capitals :
    procQuery { defaultZone := true } (ofTable defaultTable) (exQuery [[119], [99], [100]] 1 1) =
      .ok (.star 8 [1, 119, 1, 99, 1, 100, 0, 0, 1] 2) ∧
    procQuery { defaultZone := true } (ofTable defaultTable) (exQuery [[87], [99], [100]] 1 1) = .ok (.negative 2 3) := by
  decide +kernel

/-- The packet may end a name with an underscore instead of the root label; the name is then looked up as it is
(Queries.c:51). -/
theorem underscore_ends_name :
    procQuery {} (ofTable defaultTable)
      ⟨19, 512, exHeader.enc ++ [1, 119, 95, 0, 1, 0, 1] ++ List.replicate 496 0⟩ = .ok (.success 8 true) := by
  decide +kernel

/-- Questions for a name written like an address fail if the identity of the query is 0 or 65535
(MaraDNS.c:2316-2385). -/
theorem dotted_quad_id :
    procQuery {} (ofTable exTable)
      ⟨25, 512, { exHeader with id := 0 }.enc ++ [1, 49, 1, 50, 1, 51, 1, 52, 0, 0, 1, 0, 1] ++ List.replicate 490 0⟩ =
      .ok (.error 2 true) := by decide +kernel

end Lookup
end Mara
