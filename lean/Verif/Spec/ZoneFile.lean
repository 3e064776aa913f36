import Verif.Spec.Load
/-!
# Specification: the records that the server has from a zone file

From doc/en/source/csv2.ej: the SOA and the name servers of the zone stand at the top of the file;
what is missing is made up.
-/

namespace Spec

/-- A record of a zone file.  Types 65765 and 65766 are FQDN4 and FQDN6. -/
structure ZoneLine where
  star : Bool
  name : Name
  type : Nat
  ttl : Int
  data : List UInt8

/-- What the server knows of itself. -/
structure Host where
  ips : List Nat
  serial : Nat
  origin : Option (List UInt8)

def num32 (n : Nat) : List UInt8 :=
  [UInt8.ofNat (n / 16777216), UInt8.ofNat (n / 65536), UInt8.ofNat (n / 256), UInt8.ofNat n]

namespace Host

/-- The addresses that name servers are made up for: public ones if there are any, or else those that are
not 127.x.x.x, or else all; none if the server is bound to 0.0.0.0. -/
def chosen (h : Host) : List Nat :=
  let loop := fun ip => ip / 2 ^ 24 = 127
  let priv := fun ip => loop ip ∨ ip / 2 ^ 24 = 10 ∨ ip / 2 ^ 20 = 172 * 16 + 1 ∨ ip / 2 ^ 16 = 192 * 256 + 168
  if 0 ∈ h.ips then []
  else if ∃ ip ∈ h.ips, ¬ priv ip then h.ips.filter fun ip => ¬ priv ip
  else if ∃ ip ∈ h.ips, ¬ loop ip then h.ips.filter fun ip => ¬ loop ip
  else h.ips

end Host

/-- A digit, up to 15. -/
def digit (n : Nat) : UInt8 := (("0123456789abcdef".toList.getD n ' ').toNat).toUInt8

def hex8 (n : Nat) : List UInt8 :=
  [digit (n / 2 ^ 28 % 16), digit (n / 2 ^ 24 % 16), digit (n / 2 ^ 20 % 16), digit (n / 2 ^ 16 % 16),
   digit (n / 2 ^ 12 % 16), digit (n / 2 ^ 8 % 16), digit (n / 16 % 16), digit (n % 16)]

def ascii (s : String) : List UInt8 := s.toList.map fun c => c.toNat.toUInt8

/-- A number up to 255 in decimal. -/
def decimal (n : Nat) : List UInt8 :=
  if n < 10 then [digit n] else if n < 100 then [digit (n / 10), digit (n % 10)]
  else [digit (n / 100), digit (n / 10 % 10), digit (n % 10)]

/-- The name of an address in `in-addr.arpa.` -/
def reverse4 (ip : List UInt8) : Name := ip.reverse.map (fun b => decimal b.toNat) ++ [ascii "in-addr", ascii "arpa"]

/-- The name of an address in `ip6.arpa.` -/
def reverse6 (ip : List UInt8) : Name :=
  ip.reverse.flatMap (fun b => [[digit (b.toNat % 16)], [digit (b.toNat / 16)]]) ++ [ascii "ip6", ascii "arpa"]

/-- Times are kept between one minute and two years. -/
def ttlOf (t : Int) : Nat := if t < 60 then 60 else if t > 63072000 then 63072000 else t.toNat

namespace ZoneLine

/-- The record as it is. -/
def given (zone : Name) (e : ZoneLine) : Given := ⟨e.star, lowName e.name, e.type, e.data, ttlOf e.ttl, zone⟩

/-- Is it a name server of the zone? -/
def own (zone : Name) (e : ZoneLine) : Bool := decide (e.star = false ∧ lowName e.name = zone ∧ e.type = 2)

/-- The records that it stands for: FQDN4 and FQDN6 are an address and the name for the address. -/
def stands (zone : Name) (e : ZoneLine) : List Given :=
  let name := (if e.star then [95] else []) ++ encName (lowName e.name)
  if e.type = 65765 then
    [⟨false, reverse4 e.data, 12, name, ttlOf e.ttl, zone⟩, { e.given zone with type := 1 }]
  else if e.type = 65766 then
    [⟨false, reverse6 e.data, 12, name, ttlOf e.ttl, zone⟩, { e.given zone with type := 28 }]
  else [e.given zone]

end ZoneLine

/-- The SOA record made up for a zone that has none. -/
def madeSoa (h : Host) (zone : Name) : Given :=
  ⟨false, zone, 6, h.origin.getD (encName zone) ++ encName (ascii "hostmaster" :: zone) ++ num32 h.serial ++
    num32 7200 ++ num32 3600 ++ num32 604800 ++ num32 3600, 86400, zone⟩

/-- The name servers made up, with their addresses. -/
def madeNs (h : Host) (zone : Name) : List Given :=
  let name := fun ip => (ascii "synth-ip-" ++ hex8 ip) :: zone
  (h.chosen.map fun ip => ⟨false, zone, 2, encName (name ip), 86400, zone⟩) ++
    h.chosen.map fun ip => ⟨false, name ip, 1, num32 ip, 86400, zone⟩

/-- What the server has from a file: the name servers, the SOA record, and the rest; SOA records other
than a first one and name servers of the zone that come later do not count. -/
def fileRecords (h : Host) (zone : Name) (es : List ZoneLine) : List Given :=
  match es with
  | [] => []
  | e :: l =>
    let soa := if e.type = 6 then e.given zone else madeSoa h zone
    let rest := (if e.type = 6 then l else e :: l).filter fun e => e.type ≠ 6
    let top := rest.takeWhile (ZoneLine.own zone)
    let others := (rest.dropWhile (ZoneLine.own zone)).filter fun e => !e.own zone
    if others.isEmpty then top.map (ZoneLine.given zone) ++ [soa]
    else (if top.isEmpty then madeNs h zone else top.map (ZoneLine.given zone)) ++ [soa] ++ others.flatMap (ZoneLine.stands zone)

end Spec
