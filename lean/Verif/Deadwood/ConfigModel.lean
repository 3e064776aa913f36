/-!
# Numeric parameters

Source: `/repo/deadwood-github/src/DwSys.c`, `DwSocket.c`, `DwUdpSocket.c` (without
`FALLBACK_TIME`).
-/

namespace Dw
namespace Config

/-- `get_key_n`, DwSys.c:997-1016, applied to the configured value. -/
def getKeyN (val min max deflt : Int) : Int :=
  if val < min then (if deflt = -1 then min else deflt)
  else if val > max then (if deflt = -1 then max else deflt)
  else val

/-- The numbers given in the configuration file (or the defaults), `key_n`. -/
structure Keys where
  maxprocs : Int
  maxTcpProcs : Int
  timeoutSeconds : Int
  timeoutSecondsTcp : Int
  dnsPort : Int
  upstreamPort : Int
  handleOverload : Int
  handleNoreply : Int
  recurseMinBindPort : Int
  recurseNumberPorts : Int
  maradnsUid : Int
  maradnsGid : Int
  resurrections : Int
  numRetries : Int
  maxTtl : Int
  minTtl : Int
  maxttlReduceLabels : Int
  rfc8482 : Int

/-- The values in use after `process_numeric_mararc_params`. -/
structure Params where
  maxprocs : Int
  maxTcpProcs : Int
  timeoutSeconds : Int
  timeoutSecondsTcp : Int
  dnsPort : Int
  upstreamPort : Int
  handleOverload : Int
  handleNoreply : Int
  minBind : Int
  numPorts : Int
  uid : Int
  gid : Int
  resurrections : Int
  numRetries : Int
  maxTtl : Int
  minTtl : Int
  maxttlReduceLabels : Int
  rfc8482 : Int

/-- `process_numeric_mararc_params`, DwSocket.c:492-529; `none` is the fatal error.
The number of ports is positive here, so `Nat` bit operations are exact. -/
def processNumeric (k : Keys) : Option Params :=
  let numPorts := getKeyN k.recurseNumberPorts 256 32768 4096
  if numPorts.toNat &&& (numPorts - 1).toNat ≠ 0 then none
  else some {
    maxprocs := getKeyN k.maxprocs 8 8388608 (-1)
    maxTcpProcs := getKeyN k.maxTcpProcs 4 1024 (-1)
    timeoutSeconds := getKeyN k.timeoutSeconds 1 300 (-1)
    timeoutSecondsTcp := getKeyN k.timeoutSecondsTcp 1 300 (-1)
    dnsPort := getKeyN k.dnsPort 1 65535 53
    upstreamPort := getKeyN k.upstreamPort 1 65535 53
    handleOverload := getKeyN k.handleOverload 0 1 1
    handleNoreply := getKeyN k.handleNoreply 0 1 1
    minBind := getKeyN k.recurseMinBindPort 1025 32767 15000
    numPorts := numPorts - 1
    uid := getKeyN k.maradnsUid 10 16777216 707
    gid := getKeyN k.maradnsGid 10 16777216 707
    resurrections := getKeyN k.resurrections 0 1 1
    numRetries := getKeyN k.numRetries 0 32 5
    maxTtl := getKeyN k.maxTtl 300 7776000 86400
    minTtl := getKeyN k.minTtl 5 86400 60
    maxttlReduceLabels := getKeyN k.maxttlReduceLabels 1 500 3
    rfc8482 := getKeyN k.rfc8482 0 1 1 }

/-- The port `do_random_bind` asks for, DwUdpSocket.c:139-141: `rnd` is the 16-bit
random number; the argument of `setup_bind` is 16 bits wide. -/
def bindPort (p : Params) (rnd : Nat) : Nat := (p.minBind.toNat + (rnd &&& p.numPorts.toNat)) % 65536

/-- The lifetime limits of `cache_dns_reply`, DwUdpSocket.c:977-988. -/
def clampTtl (p : Params) (ttl : Int) : Int :=
  let ttl := if ttl < 30 then 30 else ttl
  let ttl := if ttl > p.maxTtl then p.maxTtl else ttl
  if ttl < p.minTtl then p.minTtl else ttl

end Config
end Dw
