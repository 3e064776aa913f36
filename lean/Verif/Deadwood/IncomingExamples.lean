import Verif.Deadwood.IncomingProps
/-!
# Examples: packets off the wire
-/

namespace Dw
namespace Incoming
open DwStr Dissect Spec

/-- W.a.e -/
def exBig : List (List UInt8) := [[87], [97], [101]]

/-- The answer to the question for the address of W.a.e: it is an alias for x.a.e, which has an address. -/
def exMsg : Msg :=
  ⟨[0x12, 0x34, 0x84, 0], exBig, 1, 1, [⟨exBig, 5, [0, 1], 300, [], [exX], []⟩, ⟨exX, 1, [0, 1], 120, [], [], [1, 2, 3, 4]⟩], [], []⟩

/-- The same in a packet: a pointer to the question, a name that ends in the question, a pointer to that name. -/
def exPacket : List UInt8 :=
  [0x12, 0x34, 0x84, 0, 0, 1, 0, 2, 0, 0, 0, 0, 1, 87, 1, 97, 1, 101, 0, 0, 1, 0, 1,
   0xc0, 12, 0, 5, 0, 1, 0, 0, 1, 44, 0, 4, 1, 120, 0xc0, 14,
   0xc0, 35, 0, 1, 0, 1, 0, 0, 0, 120, 0, 4, 1, 2, 3, 4]

def exSpare : List UInt8 := [9, 9, 9]

theorem exName1 : ReadFrom (memOf exPacket) exBig 23 exBig :=
  ⟨4, by decide, .asked (x := 0xc0) (y := 12) (a := []) (by decide) (by decide) (by decide) (by decide) rfl⟩

theorem exLabel : LabelAt (memOf exPacket) 35 [120] := ⟨by decide, by decide, by decide, by decide⟩

theorem exName2' : NameFrom (memOf exPacket) exBig 4 35 exX :=
  .label exLabel (.asked (x := 0xc0) (y := 14) (a := [[87]]) (b := [[97], [101]]) (by decide) (by decide) (by decide) (by decide) rfl)

theorem exName2 : ReadFrom (memOf exPacket) exBig 35 exX := ⟨4, by decide, exName2'⟩

theorem exName3 : ReadFrom (memOf exPacket) exBig 39 exX :=
  ⟨5, by decide, .behind (x := 0xc0) (y := 35) (by decide) (by decide) (by decide) (by decide) exName2'⟩

theorem exFrom : exMsg.From exPacket where
  front := ⟨exPacket.drop 23, by decide⟩
  recs := by
    refine .cons (e := 39) ⟨25, 39, exName1, .pointer (x := 0xc0) (by decide) (by decide), ?_, by decide, by decide, ?_, ?_, ?_, by decide⟩
      (.cons (e := 55) ⟨41, 51, exName3, .pointer (x := 0xc0) (by decide) (by decide), ?_, by decide, by decide, ?_, .nil, ?_, by decide⟩ .nil)
    · unfold BytesAt; decide
    · unfold BytesAt; decide
    · exact .cons exName2 (.label exLabel (.pointer (x := 0xc0) (by decide) (by decide))) .nil
    · unfold BytesAt; decide
    · unfold BytesAt; decide
    · unfold BytesAt; decide
    · unfold BytesAt; decide

theorem exMsg_plain : exMsg.Plain where
  head := rfl
  qname := ⟨by unfold LabelsOk; decide, by decide⟩
  printable := by decide
  qtype := by decide
  recs r hr := plain_of (List.all_eq_true.1 (show exMsg.all.all plainB = true by decide) r hr)
  a := by decide
  aaaa := by decide
  some := by decide
  size := by decide

theorem exServers_e : Servers exServers [[101]] := exServers_of

/-- It is kept under the question in lower case, for two minutes. -/
example : ∃ kept, SameRecs [⟨exBig, 5, [0, 1], 300, [], [exX], []⟩, ⟨exX, 1, [0, 1], 120, [], [], [1, 2, 3, 4]⟩] kept ∧
    cacheDnsReply exTimes true (fun _ => false) exServers false (exPacket ++ exSpare) exPacket.length [] =
      .ok (.step ⟨[⟨encName exW ++ be16 1, (⟨kept, [], [], 0⟩ : Answers).packed.enc, 120⟩], none, none⟩) :=
  packet_answer exTimes true (fun _ => false) exServers_e exCtl false exMsg_plain (by decide) (by decide) (by decide) exFrom
    (by decide) (by decide) (by decide) (cs := [⟨exBig, 5, [0, 1], 300, [], [exX], []⟩])
    (rest := [⟨exX, 1, [0, 1], 120, [], [], [1, 2, 3, 4]⟩]) rfl (by decide) (by decide) (by decide) (by decide) (by decide) (by decide)
    (by decide) []

/-- Nothing undefined happens. -/
example : cacheDnsReply exTimes true (fun _ => false) exServers false (exPacket ++ exSpare) exPacket.length [] ≠ .ub :=
  packet_safe exTimes true _ exServers_e false exMsg_plain (by decide) (by decide) (by decide) exFrom []

/-- With that address on the list of those that are blocked. -/
example : cacheDnsReply exTimes true (fun ip => ip == [1, 2, 3, 4]) exServers false (exPacket ++ exSpare) exPacket.length [] =
    .ok .blocked :=
  (packet_blocked exTimes true _ exServers false exMsg_plain (by decide) (by decide) (by decide) exFrom []).2
    ⟨⟨exX, 1, [0, 1], 120, [], [], [1, 2, 3, 4]⟩, by decide, by decide⟩

/-- There is no name W.a.e; the SOA record is for e. -/
def exNo : Msg :=
  ⟨[0x12, 0x34, 0x84, 3], exBig, 1, 1, [], [⟨[[101]], 6, [0, 1], 3600, [], [exX, exX], List.replicate 20 1⟩], []⟩

def exNoPacket : List UInt8 :=
  [0x12, 0x34, 0x84, 3, 0, 1, 0, 0, 0, 1, 0, 0, 1, 87, 1, 97, 1, 101, 0, 0, 1, 0, 1,
   0xc0, 16, 0, 6, 0, 1, 0, 0, 14, 16, 0, 26, 1, 120, 0xc0, 14, 0xc0, 35,
   1, 1, 1, 1, 1, 1, 1, 1, 1, 1, 1, 1, 1, 1, 1, 1, 1, 1, 1, 1]

theorem exNoLabel : LabelAt (memOf exNoPacket) 35 [120] := ⟨by decide, by decide, by decide, by decide⟩

theorem exNoName' : NameFrom (memOf exNoPacket) exBig 4 35 exX :=
  .label exNoLabel (.asked (x := 0xc0) (y := 14) (a := [[87]]) (b := [[97], [101]]) (by decide) (by decide) (by decide) (by decide) rfl)

theorem exNoFrom : exNo.From exNoPacket where
  front := ⟨exNoPacket.drop 23, by decide⟩
  recs := by
    refine .cons (e := 61) ⟨25, 41,
      ⟨2, by decide, .asked (x := 0xc0) (y := 16) (a := [[87], [97]]) (b := [[101]]) (by decide) (by decide) (by decide) (by decide) rfl⟩,
      .pointer (x := 0xc0) (by decide) (by decide), ?_, by decide, by decide, ?_, ?_, ?_, by decide⟩ .nil
    · unfold BytesAt; decide
    · unfold BytesAt; decide
    · exact .cons (e := 39) ⟨4, by decide, exNoName'⟩ (.label exNoLabel (.pointer (x := 0xc0) (by decide) (by decide)))
        (.cons (e := 41) ⟨5, by decide, .behind (x := 0xc0) (y := 35) (by decide) (by decide) (by decide) (by decide) exNoName'⟩
          (.pointer (x := 0xc0) (by decide) (by decide)) .nil)
    · unfold BytesAt; decide

theorem exNo_plain : exNo.Plain where
  head := rfl
  qname := ⟨by unfold LabelsOk; decide, by decide⟩
  printable := by decide
  qtype := by decide
  recs r hr := plain_of (List.all_eq_true.1 (show exNo.all.all plainB = true by decide) r hr)
  a := by decide
  aaaa := by decide
  some := by decide
  size := by decide

/-- That there is no such name is kept for an hour. -/
example : ∃ d, SameAnswers ⟨[], exNo.ns, [], 1⟩ d ∧
    cacheDnsReply exTimes true (fun _ => false) exServers false (exNoPacket ++ exSpare) exNoPacket.length [] =
      .ok (.step ⟨[⟨encName exW ++ be16 1, d.packed.enc, 3600⟩], none, none⟩) :=
  packet_denial exTimes true (fun _ => false) exServers_e exCtl false exNo_plain (by decide) (by decide) (by decide) exNoFrom
    rfl rfl rfl (by decide) (by decide) []

/-- What is kept is what may be kept. -/
example {st : Step} (h : cacheDnsReply exTimes true (fun _ => false) exServers false (exNoPacket ++ exSpare) exNoPacket.length [] =
    .ok (.step st)) : ∀ e ∈ st.puts, MayKeep [[101]] exW 1 e.key e.value ∧ 30 ≤ e.ttl ∧ e.ttl ≤ 86400 :=
  (packet_inside_partial exTimes (by decide) (by decide) true _ exServers_e false exNo_plain (by decide) (by decide) (by decide) exNoFrom
    (by decide) [] h).1

/-- The same with the code for a server that failed. -/
def exFail : Msg := { exNo with head := [0x12, 0x34, 0x84, 2] }

theorem exFail_plain : exFail.Plain where
  head := rfl
  qname := ⟨by unfold LabelsOk; decide, by decide⟩
  printable := by decide
  qtype := by decide
  recs r hr := plain_of (List.all_eq_true.1 (show exNo.all.all plainB = true by decide) r hr)
  a := by decide
  aaaa := by decide
  some := by decide
  size := by decide

def exFailPacket : List UInt8 := exNoPacket.set 3 2

theorem exFailLabel : LabelAt (memOf exFailPacket) 35 [120] := ⟨by decide, by decide, by decide, by decide⟩

theorem exFailName' : NameFrom (memOf exFailPacket) exBig 4 35 exX :=
  .label exFailLabel (.asked (x := 0xc0) (y := 14) (a := [[87]]) (b := [[97], [101]]) (by decide) (by decide) (by decide) (by decide) rfl)

theorem exFailFrom : exFail.From exFailPacket where
  front := ⟨exNoPacket.drop 23, by decide⟩
  recs := by
    refine .cons (e := 61) ⟨25, 41,
      ⟨2, by decide, .asked (x := 0xc0) (y := 16) (a := [[87], [97]]) (b := [[101]]) (by decide) (by decide) (by decide) (by decide) rfl⟩,
      .pointer (x := 0xc0) (by decide) (by decide), ?_, by decide, by decide, ?_, ?_, ?_, by decide⟩ .nil
    · unfold BytesAt; decide
    · unfold BytesAt; decide
    · exact .cons (e := 39) ⟨4, by decide, exFailName'⟩ (.label exFailLabel (.pointer (x := 0xc0) (by decide) (by decide)))
        (.cons (e := 41) ⟨5, by decide, .behind (x := 0xc0) (y := 35) (by decide) (by decide) (by decide) (by decide) exFailName'⟩
          (.pointer (x := 0xc0) (by decide) (by decide)) .nil)
    · unfold BytesAt; decide

example : cacheDnsReply exTimes true (fun _ => false) exServers false (exFailPacket ++ exSpare) exFailPacket.length [] = .err :=
  packet_failed exTimes true _ exServers false exFail_plain (by decide) (by decide) exFailFrom []

/-- Finding: a packet may keep its answer longer than one of its records allows: only the first record behind the aliases counts.
Two addresses, one for two minutes and one for a minute and a half: both are kept for two minutes. -/
def exTwo : Msg :=
  ⟨[0x12, 0x34, 0x84, 0], exBig, 1, 1, [⟨exBig, 1, [0, 1], 120, [], [], [1, 2, 3, 4]⟩, ⟨exBig, 1, [0, 1], 90, [], [], [1, 2, 3, 5]⟩], [], []⟩

def exTwoPacket : List UInt8 :=
  [0x12, 0x34, 0x84, 0, 0, 1, 0, 2, 0, 0, 0, 0, 1, 87, 1, 97, 1, 101, 0, 0, 1, 0, 1,
   0xc0, 12, 0, 1, 0, 1, 0, 0, 0, 120, 0, 4, 1, 2, 3, 4,
   0xc0, 12, 0, 1, 0, 1, 0, 0, 0, 90, 0, 4, 1, 2, 3, 5]

theorem exTwoFrom : exTwo.From exTwoPacket where
  front := ⟨exTwoPacket.drop 23, by decide⟩
  recs := by
    refine .cons (e := 39) ⟨25, 35, ⟨4, by decide, .asked (x := 0xc0) (y := 12) (a := []) (by decide) (by decide) (by decide) (by decide) rfl⟩,
        .pointer (x := 0xc0) (by decide) (by decide), ?_, by decide, by decide, ?_, .nil, ?_, by decide⟩
      (.cons (e := 55) ⟨41, 51, ⟨4, by decide, .asked (x := 0xc0) (y := 12) (a := []) (by decide) (by decide) (by decide) (by decide) rfl⟩,
        .pointer (x := 0xc0) (by decide) (by decide), ?_, by decide, by decide, ?_, .nil, ?_, by decide⟩ .nil)
    all_goals (unfold BytesAt; decide)

theorem exTwo_plain : exTwo.Plain where
  head := rfl
  qname := ⟨by unfold LabelsOk; decide, by decide⟩
  printable := by decide
  qtype := by decide
  recs r hr := plain_of (List.all_eq_true.1 (show exTwo.all.all plainB = true by decide) r hr)
  a := by decide
  aaaa := by decide
  some := by decide
  size := by decide

theorem packet_outlives : ∃ (p : Msg) (c : List UInt8) (r : Rec) (value : List UInt8), p.Plain ∧ p.From c ∧ r ∈ p.an ∧ r.ttl = 90 ∧
    cacheDnsReply exTimes true (fun _ => false) exServers false (c ++ exSpare) c.length [] =
      .ok (.step ⟨[⟨encName exW ++ be16 1, value, 120⟩], none, none⟩) := by
  obtain ⟨kept, -, h⟩ := packet_answer exTimes true (fun _ => false) exServers_e exCtl false exTwo_plain (by decide) (c := exTwoPacket)
    (spare := exSpare) (by decide) (by decide) exTwoFrom
    (by decide) (by decide) (by decide) (cs := []) (rest := exTwo.an) rfl (by decide) (by decide) (by decide) (by decide) (by decide)
    (by decide) (by decide) []
  exact ⟨exTwo, exTwoPacket, ⟨exBig, 1, [0, 1], 90, [], [], [1, 2, 3, 5]⟩, _, exTwo_plain, exTwoFrom, by decide, rfl, h⟩

end Incoming
end Dw
