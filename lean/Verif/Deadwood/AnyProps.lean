import Verif.Deadwood.AnyPacket
import Verif.Deadwood.DissectProps
/-!
# Properties: any packet at all

The bytes of a reply are arbitrary here: they need not be a message.
-/

namespace Dw
namespace Incoming
open DwStr Dissect Spec

/-- A packet that came in: its bytes in the receive buffer, of which `count` were received, the list of servers it is judged
by, and whether these are upstream servers. -/
structure Packet where
  list : List UInt8
  up : Bool
  buf : List UInt8
  count : Nat

/-- The lists of servers that are known after a packet: those asked next, and what is kept as the servers of a zone. -/
def learn (known : List (List UInt8)) : Received → List (List UInt8)
  | .blocked => known
  | .step st => known ++ st.ns.toList ++
      (st.puts.filter fun p => p.key.drop (p.key.length - 2) == be16 65395).map Put.value

/-- Packets one after the other, each judged by a list known by then. -/
def hear (cfg : Times) (filter : Bool) (blocked : List UInt8 → Bool) (junk : List UInt8) :
    List (List UInt8) → List Packet → Res (List (List UInt8))
  | known, [] => .ok known
  | known, p :: ps =>
    if p.list ∈ known then
      match cacheDnsReply cfg filter blocked (Remote.dstr p.list) p.up p.buf p.count junk with
      | .ub => .ub
      | .err => hear cfg filter blocked junk known ps
      | .ok r => hear cfg filter blocked junk (learn known r) ps
    else hear cfg filter blocked junk known ps

/-- C112.  Whatever the bytes of a packet are, nothing undefined happens; and if it leads to anything, it has a legal question, and what
is put in the cache is put under that question, as its aliases, or as a list of servers. -/
theorem any_packet (cfg : Times) (filter : Bool) (blocked : List UInt8 → Bool) {ns : DwStr} {bs : List (List UInt8)} (hs : Servers ns bs)
    (up : Bool) {packet : List UInt8} {count : Nat} (h12 : 12 ≤ count) (hc : count + 3 ≤ packet.length) (hmax : count < 65536)
    (junk : List UInt8) :
    cacheDnsReply cfg filter blocked ns up packet count junk ≠ .ub ∧
    ∀ st, cacheDnsReply cfg filter blocked ns up packet count junk = .ok (.step st) →
      ∃ h ls t0 t1, Remote.Legal ls t0 t1 ∧ Remote.Asks (packet.take count) h ls t0 t1 ∧
        ∀ p ∈ st.puts, p.key = encName (Remote.lowerLabels ls) ++ [t0, t1] ∨
          p.key = encName (Remote.lowerLabels ls) ++ be16 65394 ∨ ∃ name, p.key = name ++ be16 65395 := by
  have hf := cacheDnsReply_any cfg filter blocked hs.usable (servers_legible hs) up h12 hc hmax junk
  refine ⟨hf.not_ub, fun st hst => ?_⟩
  obtain ⟨h, ls, t0, t1, g1, g2, g3⟩ := hf.get hst
  refine ⟨h, ls, t0, t1, g1, g2, fun p hp => ?_⟩
  rcases g3.puts p hp with h1 | h1 | ⟨name, h1, -⟩
  · left
    have := (asked_of g1).contents
    rw [Remote.dstr_contents] at this
    rw [h1, ← this]
  · exact .inr (.inl h1)
  · exact .inr (.inr ⟨name, h1⟩)

/-- C112.  Nor does anything undefined happen for any sequence of packets, where the first is judged by configured servers and the
others by any lists of servers that the ones before have left. -/
theorem any_packets (cfg : Times) (filter : Bool) (blocked : List UInt8 → Bool) (junk : List UInt8) {conf : List (List UInt8)}
    (hconf : ∀ l ∈ conf, ∃ bs, Servers (Remote.dstr l) bs) {ps : List Packet}
    (hps : ∀ p ∈ ps, 12 ≤ p.count ∧ p.count + 3 ≤ p.buf.length ∧ p.count < 65536) :
    hear cfg filter blocked junk conf ps ≠ .ub := by
  have key : ∀ (ps : List Packet) (known : List (List UInt8)),
      (∀ p ∈ ps, 12 ≤ p.count ∧ p.count + 3 ≤ p.buf.length ∧ p.count < 65536) →
      (∀ l ∈ known, Usable (Remote.dstr l) ∧ Legible l) → hear cfg filter blocked junk known ps ≠ .ub := by
    intro ps
    induction ps with
    | nil => intro known _ _; simp [hear]
    | cons p ps ih =>
      intro known hps hk
      have hps' : ∀ p ∈ ps, 12 ≤ p.count ∧ p.count + 3 ≤ p.buf.length ∧ p.count < 65536 := fun q hq => hps q (by simp [hq])
      unfold hear
      split
      · rename_i hmem
        obtain ⟨h1, h2⟩ := hk _ hmem
        obtain ⟨c1, c2, c3⟩ := hps p (by simp)
        rcases cacheDnsReply_any cfg filter blocked h1 (by rw [Remote.dstr_contents]; exact h2) p.up c1 c2 c3 junk with e | ⟨r, e, g⟩
        · rw [e]; exact ih known hps' hk
        · rw [e]
          refine ih _ hps' fun l hl => ?_
          obtain ⟨h, ls, t0, t1, g1, -, g3⟩ := g
          cases r with
          | blocked => exact hk l hl
          | step st =>
            simp only [learn, List.mem_append] at hl
            rcases hl with (hl | hl) | hl
            · exact hk l hl
            · obtain ⟨k1, k2, -⟩ := g3.ns l (by simpa using hl)
              exact ⟨Remote.dstr_usable k1, k2⟩
            · obtain ⟨q, hq, rfl⟩ := List.mem_map.1 hl
              obtain ⟨hq1, hq2⟩ := List.mem_filter.1 hq
              have hq2 := eq_of_beq hq2
              have tail : ∀ (x : List UInt8) (t : Nat), (x ++ be16 t).drop ((x ++ be16 t).length - 2) = be16 t := by
                intro x t
                rw [List.length_append, be16_length, Nat.add_sub_cancel, List.drop_left]
              rcases g3.puts q hq1 with k | k | ⟨name, -, k3, k4, -⟩
              · exfalso
                rw [k, tail] at hq2
                have hty := g1.type
                have e1 := congrArg (fun l => l[0]?) hq2
                have e2 := congrArg (fun l => l[1]?) hq2
                simp only [be16, List.getElem?_cons_zero, List.getElem?_cons_succ, Option.some.injEq] at e1 e2
                have b0 := t0.toNat_lt
                have b1 := t1.toNat_lt
                have e1 := congrArg UInt8.toNat e1
                have e2 := congrArg UInt8.toNat e2
                rw [UInt8.toNat_ofNat', UInt8.toNat_ofNat'] at e1 e2
                refine hty ⟨UInt8.toNat_inj.1 ?_, ?_, ?_⟩
                · have : (255 : UInt8).toNat = 255 := rfl
                  omega
                · omega
                · omega
              · exfalso
                rw [k, tail] at hq2
                exact absurd hq2 (by decide)
              · exact ⟨Remote.dstr_usable k3, k4⟩
      · exact ih known hps' hk
  refine key ps conf hps fun l hl => ?_
  obtain ⟨bs, hb⟩ := hconf l hl
  exact ⟨hb.usable, by have := servers_legible hb; rwa [Remote.dstr_contents] at this⟩

/-! ### An example: the packet says that it has three authority records and has two, the second of which has the eight bytes
`0 0 0 5 0 0 0 5` as data: where the place of the third should be, these are taken for it -/

def liar : List UInt8 := [0, 1, 0x80, 0, 0, 1, 0, 0, 0, 3, 0, 0] ++ (encName [[97], [98]] ++ [0, 1, 0, 1]) ++
  (encName [[97], [98]] ++ [0, 2, 0, 1, 0, 0, 1, 0, 0, 3, 1, 99, 0]) ++
  (encName [[98]] ++ [0, 16, 0, 1, 0, 0, 1, 0, 0, 8, 0, 0, 0, 5, 0, 0, 0, 5])

def liarTimes : Times := ⟨60, 86400, 9, 60⟩

/-- The servers of `b.`. -/
def liarList : List UInt8 := encName [[98]] ++ [1, 10, 0, 0, 1, 0, 3, 1, 16]

theorem liar_servers : Servers (Remote.dstr liarList) [[98]] :=
  ⟨Remote.dstr_usable (by decide), ⟨by unfold LabelsOk; decide, by decide⟩, ⟨_, Remote.dstr_contents _⟩⟩

/-- The same server is listed twice. -/
example : ∃ st, cacheDnsReply liarTimes false (fun _ => false) (Remote.dstr liarList) false (liar ++ List.replicate 3 7) liar.length [] =
    .ok (.step st) ∧ 12 ≤ liar.length ∧ liar.length + 3 ≤ (liar ++ List.replicate 3 7).length ∧
    st.ns = some (encName [[97], [98]] ++ [2, 0, 3, 1, 99, 0] ++ [2, 0, 3, 1, 99, 0] ++ [0, 5, 0, 11, 2, 16]) :=
  ⟨⟨[⟨encName [[97], [98]] ++ be16 65395,
      encName [[97], [98]] ++ [2, 0, 3, 1, 99, 0] ++ [2, 0, 3, 1, 99, 0] ++ [0, 5, 0, 11, 2, 16], 3600⟩],
      some (encName [[97], [98]] ++ [2, 0, 3, 1, 99, 0] ++ [2, 0, 3, 1, 99, 0] ++ [0, 5, 0, 11, 2, 16]), none⟩,
    by decide +kernel, by decide, by decide, rfl⟩

/-- The packet twice: first from the servers of `b.`, then from those it refers to, which may not refer to themselves. -/
example : (∀ l ∈ [liarList], ∃ bs, Servers (Remote.dstr l) bs) ∧
    hear liarTimes false (fun _ => false) [] [liarList]
      [⟨liarList, false, liar ++ List.replicate 3 7, liar.length⟩,
        ⟨encName [[97], [98]] ++ [2, 0, 3, 1, 99, 0] ++ [2, 0, 3, 1, 99, 0] ++ [0, 5, 0, 11, 2, 16], false,
          liar ++ List.replicate 3 7, liar.length⟩] =
    .ok [liarList, encName [[97], [98]] ++ [2, 0, 3, 1, 99, 0] ++ [2, 0, 3, 1, 99, 0] ++ [0, 5, 0, 11, 2, 16],
      encName [[97], [98]] ++ [2, 0, 3, 1, 99, 0] ++ [2, 0, 3, 1, 99, 0] ++ [0, 5, 0, 11, 2, 16], [0, 16], [0, 16]] :=
  ⟨fun l hl => by rw [List.mem_singleton.1 hl]; exact ⟨_, liar_servers⟩, by decide +kernel⟩

end Incoming

namespace Dissect
open DwStr Spec

/-- C84, for any bytes.  Whatever the decompressed reply is, if the number of authority records at its end is at most fifteen, what is put in
the cache is what may be, and the servers asked next are those of a zone that may be delegated (or there are none).  Missing: more
authority records, for which it is false (`kept_outside`). -/
theorem any_inside_partial (cfg : Times) {ns : DwStr} {bs : List (List UInt8)} (hs : Servers ns bs) (up : Bool)
    {query inp : DwStr} {qs : List (List UInt8)} {qtype : Nat} (hq : Asked query qs qtype) (hi : Usable inp)
    (hlen : inp.contents.length < 100000) {x : List UInt8} {n ar : Nat} {kind : UInt8} (hc : inp.contents = x ++ be16 n ++ be16 ar ++ [kind])
    (hn : n < 65536) (few : n ≤ 15) (ttl : Int) (junk : List UInt8) :
    cacheReply cfg ns up query inp ttl junk ≠ .ub ∧
    ∀ st, cacheReply cfg ns up query inp ttl junk = .ok st →
      (∀ e ∈ st.puts, MayKeep bs qs qtype e.key e.value) ∧
      (∀ l, st.ns = some l → l = [0, 16] ∨ ∃ z x, l = encName z ++ x ∧ MayDelegate bs qs z) := by
  have hcl := hi.clen
  have hf := cacheReply_any hs.usable (servers_legible hs) hq hi (by unfold Short; omega) cfg up ttl junk
  have hfew : ∃ n, inp.fetchU16 ((inp.len : Int) - 1 - 4) = .ok n ∧ n ≤ 15 := by
    refine ⟨n, ?_, few⟩
    have := bytesAt_mid (s := inp) (pre := x) (l := be16 n) (post := be16 ar ++ [kind]) (by rw [hc]; simp)
    have := fetchU16_at hi this hn
    rw [← this]
    congr 1
    rw [← hcl, hc]
    simp only [List.length_append, be16_length, List.length_singleton]
    omega
  refine ⟨hf.not_ub, fun st hst => ?_⟩
  have hsnd := hf.get hst
  refine ⟨fun e he => ?_, fun l hl => ?_⟩
  · rcases hsnd.puts e he with h | h | ⟨name, h1, -, -, h2⟩
    · exact .inl h
    · exact .inr (.inl h)
    · rcases h2 hfew with ⟨rfl, h3⟩ | ⟨z, x, h3, h4, rfl, h5⟩
      · exact .inr (.inr (.inr ⟨h1, h3⟩))
      · exact .inr (.inr (.inl ⟨z, h4 bs hs, h1⟩))
  · rcases (hsnd.ns l hl).2.2 hfew with h | ⟨z, x, -, h1, h2⟩
    · exact .inl h
    · exact .inr ⟨z, x, h2, h1 bs hs⟩

/-- The records of `liar` as they are when they have been written out. -/
def liarOut : List UInt8 := (encName [[97], [98]] ++ [0, 2, 0, 1, 0, 0, 1, 0, 0, 3, 1, 99, 0]) ++
  (encName [[98]] ++ [0, 16, 0, 1, 0, 0, 1, 0, 0, 8, 0, 0, 0, 5, 0, 0, 0, 5]) ++ [0, 0, 0, 5, 0, 18, 0, 21] ++ [0, 0]

def liarQuery : DwStr := Remote.dstr (encName [[97], [98]] ++ be16 1)

example : Asked liarQuery [[97], [98]] 1 ∧ Usable (Remote.dstr (liarOut ++ be16 3 ++ be16 0 ++ [0])) ∧
    (∃ st, cacheReply Incoming.liarTimes (Remote.dstr Incoming.liarList) false liarQuery
      (Remote.dstr (liarOut ++ be16 3 ++ be16 0 ++ [0])) 256 [] = .ok st ∧ st.puts.length = 1) :=
  ⟨⟨Remote.dstr_usable (by decide), by unfold LabelsOk; decide, by unfold NoCtl; decide, by decide, by decide, Remote.dstr_contents _⟩,
    Remote.dstr_usable (by decide),
    ⟨[⟨encName [[97], [98]] ++ be16 65395,
      encName [[97], [98]] ++ [2, 0, 3, 1, 99, 0] ++ [2, 0, 3, 1, 99, 0] ++ [0, 5, 0, 11, 2, 16], 3600⟩],
      some (encName [[97], [98]] ++ [2, 0, 3, 1, 99, 0] ++ [2, 0, 3, 1, 99, 0] ++ [0, 5, 0, 11, 2, 16]), none⟩,
    by decide +kernel, rfl⟩

end Dissect
end Dw
