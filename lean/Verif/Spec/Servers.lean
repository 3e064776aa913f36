import Verif.Spec.Believe
/-!
# C124: the servers of a line of the configuration

What Deadwood has to remember for a line like `root_servers["."] = "198.41.0.4, 2001:503:ba3e::2:30"`: the zone, and
the addresses of its servers.
-/

namespace Spec

/-- An address as it is kept: the number of its record type, and its bytes. -/
def addrEntry (a : List UInt8) : List UInt8 := (if a.length = 4 then 1 else 28) :: a

/-- The servers of a zone as they are kept: the zone, the addresses, where each of them is, how many there are, and
the number that says what kind of servers they are. -/
def serverList (zone : List UInt8) (addrs : List (List UInt8)) (kind : UInt8) : List UInt8 :=
  zone ++ (addrs.map addrEntry).flatten ++ (place zone.length (addrs.map addrEntry)).flatMap be16 ++
    [UInt8.ofNat addrs.length, kind]

/-- The number for servers that are asked to do the work themselves (`upstream_servers`), and the number for servers
that refer to others (`root_servers`). -/
def kindOf (upstream : Bool) : UInt8 := if upstream then 22 else 16

/-- A line of the configuration: its items with commas between them. -/
def lineText (items : List (List UInt8)) : List UInt8 := [(44 : UInt8)].intercalate items

/-- How long the entries for the addresses are. -/
def listSize (addrs : List (List UInt8)) : Nat := ((addrs.map addrEntry).flatten).length + 2 * addrs.length + 2

end Spec
