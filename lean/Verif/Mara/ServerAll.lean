import Verif.Mara.ServerStep
import Verif.Mara.CompLemmas
/-!
# The authoritative server: questions for all records
-/

namespace Mara
namespace Server

open Dw (Res)
open Spec
open Lookup (queryBytes Ordinary)

/-- The packet is this question, and it is for all records of the name. -/
structure PosesAll (cfg : Lookup.Cfg) (p : Packet) (k : Query) : Prop where
  live : Js.Ok p.raw
  labels : LabelsOk k.name
  fits : (encName k.name).length ≤ 253
  type : k.type = 255
  head : ∃ hd rest, Ordinary hd ∧ p.raw.contents = queryBytes hd k.name 255 1 rest ∧ hd.id.val = k.id ∧ hd.rd = k.rd
  long : p.long = k.long

/-- The setting `rfc8482`: `udpany` replies to everything it is asked. -/
def Rfc8482 (cfg : Lookup.Cfg) : Prop := ∀ l, cfg.any l = some true

/-- The message in reply to a question for all records: one made-up record, "RFC8482", whoever the name belongs to. -/
def allMsg (k : Query) : Msg where
  head := answerHead k.id true k.rd
  qname := k.name
  qtype := 255
  qclass := 1
  an := [⟨k.name, 13, [0, 1], 3600, [], [], [7, 82, 70, 67, 56, 52, 56, 50, 0]⟩]
  ns := []
  ar := []

theorem bytesAt_pre {c pre l post : List UInt8} {n : Nat} (h : c = pre ++ (l ++ post)) (hn : n = pre.length) : BytesAt (memOf c) n l := by
  subst h hn
  exact Comp.bytesAt_view (h := none) (by intro a ha; cases ha) l post

/-- What `udpany` writes. -/
theorem rfc8482_eq {k : Query} (hn : (encName k.name).length ≤ 255) :
    rfc8482 k.id (encName k.name ++ be16 255) k.rd = some ((allMsg k).header ++ (allMsg k).question ++
      [192, 12, 0, 13, 0, 1, 0, 0, 14, 16, 0, 9, 7, 82, 70, 67, 56, 52, 56, 50, 0]) := by
  have hl : ∀ {out l : List UInt8}, out.length + l.length < 1024 → Reply.append 1024 out l = some (out ++ l) := by
    intro out l h
    unfold Reply.append
    rw [if_neg (by omega)]
  unfold rfc8482
  have hh := Reply.makeHdr_length { id := k.id, qr := true, aa := true, rd := k.rd, qd := 1, an := 1 }
  have ha := Reply.answerHead_eq k.id 1 0 0 true k.rd
  have hb : (be16 255).length = 2 := rfl
  dsimp only
  rw [hl (by rw [List.length_append]; omega)]
  have hp : ∀ n, (Reply.put16 n).length = 2 := fun _ => rfl
  have h1 : ([0] : List UInt8).length = 1 := rfl
  simp only [Option.bind_eq_bind, Option.bind_some]
  iterate 11 rw [hl (by simp only [List.length_append, hp, hb, hh]; omega), Option.bind_some]
  rw [hl (by simp only [List.length_append, hp, hb, hh, h1]; omega), ha]
  unfold allMsg Msg.header Msg.question
  simp only [List.length_cons, List.length_nil]
  simp [Reply.put16, be16]

/-- **C104.** The reply to a question for all records is one whole message. -/
theorem rfc8482_is {k : Query} (hk : LabelsOk k.name) : (allMsg k).Is ((allMsg k).header ++ (allMsg k).question ++
      [192, 12, 0, 13, 0, 1, 0, 0, 14, 16, 0, 9, 7, 82, 70, 67, 56, 52, 56, 50, 0]) := by
  generalize hc : (allMsg k).header ++ (allMsg k).question ++ [192, 12, 0, 13, 0, 1, 0, 0, 14, 16, 0, 9, 7, 82, 70, 67, 56, 52, 56, 50, 0] = c
  refine ⟨⟨_, hc⟩, ?_⟩
  have h12 : (allMsg k).header.length = 12 := rfl
  have hq : (allMsg k).question.length = (encName k.name).length + 4 := by simp [allMsg, Msg.question, be16]
  have hpos := Lookup.encName_pos k.name
  generalize hn : ((allMsg k).header ++ (allMsg k).question).length = n
  rw [List.length_append, h12, hq] at hn
  have hlen : c.length = n + 21 := by rw [← hc, ← hn]; simp [hq, h12]; omega
  have hpre : ∀ (a l post : List UInt8), a ++ (l ++ post) = [192, 12, 0, 13, 0, 1, 0, 0, 14, 16, 0, 9, 7, 82, 70, 67, 56, 52, 56, 50, 0] →
      BytesAt (memOf c) (n + a.length) l := by
    intro a l post h
    refine bytesAt_pre (pre := (allMsg k).header ++ (allMsg k).question ++ a) (post := post) ?_ (by rw [List.length_append, List.length_append, h12, hq]; omega)
    rw [← hc, ← h]
    simp
  have hx := hpre [] [192] _ rfl 0 (by decide)
  have hy := hpre [192] [12] _ rfl 0 (by decide)
  have hname : NameIn (memOf c) 12 k.name := by
    have := Comp.nameIn_plain hk (allMsg k).header (be16 255 ++ be16 1 ++ [192, 12, 0, 13, 0, 1, 0, 0, 14, 16, 0, 9, 7, 82, 70, 67, 56, 52, 56, 50, 0])
    rw [h12] at this
    rw [← hc]
    simpa [Msg.question, allMsg] using this
  have hall : (allMsg k).all = [⟨k.name, 13, [0, 1], 3600, [], [], [7, 82, 70, 67, 56, 52, 56, 50, 0]⟩] := rfl
  rw [hall, hlen]
  refine .cons (e := n + 21) ⟨n + 2, n + 12, .pointer (x := 192) (y := 12) hx (by decide) hy (by show 12 < n; omega) hname, .pointer (x := 192) hx (by decide), ?_, by omega, by omega, ?_, .nil, ?_, rfl⟩ .nil
  · rw [show n + 21 - (n + 2 + 10) = 9 by omega]
    exact hpre [192, 12] (be16 13 ++ [0, 1] ++ be32 3600 ++ be16 9) [7, 82, 70, 67, 56, 52, 56, 50, 0] rfl
  · intro j hj; simp at hj
  · exact hpre [192, 12, 0, 13, 0, 1, 0, 0, 14, 16, 0, 9] [7, 82, 70, 67, 56, 52, 56, 50, 0] [] rfl

/-- What the packet says. -/
theorem PosesAll.read {cfg : Lookup.Cfg} {p : Packet} {k : Query} (h : PosesAll cfg p k) :
    idOf p.raw = k.id ∧ rdOf p.raw = k.rd ∧ question p.raw = encName k.name ++ be16 255 := by
  obtain ⟨hd, rest, ho, hc, hid, hrd⟩ := h.head
  obtain ⟨h1, h2, h3, _⟩ := read_of h.live ho h.labels h.fits hc
  exact ⟨h1.trans hid, h2.trans hrd, h3⟩

/-- **C104.** A question for all records is answered, whatever records there are, and leaves the server as it is. -/
theorem all_answered {cfg : Cfg} (hu : cfg.look.dos ≤ 13) (ha : Rfc8482 cfg.look) {p : Packet} {k : Query} (h : PosesAll cfg.look p k) (s : Srv) :
    ∃ c, answer cfg s p.raw p.long = .ok (some c, s) ∧ (allMsg k).Is c ∧ c.length ≤ 512 := by
  obtain ⟨e1, e2, e3⟩ := h.read
  obtain ⟨hd, rest, ho, hc, hid, hrd⟩ := h.head
  have hf := h.fits
  have hq : Lookup.procQuery cfg.look s.hash p.raw = .ok .any := by
    rw [Lookup.front h.live cfg.look s.hash ho h.labels (by omega) (by omega) hc, if_neg (by omega), if_neg (by decide), if_neg (by rintro ⟨h1, _⟩; omega),
      if_neg (by rintro ⟨h1, _⟩; omega), if_neg (by omega), if_neg (by omega)]
    unfold Lookup.search
    rw [if_neg (by omega)]
    dsimp only
    rw [if_neg (by omega), if_pos ⟨hu, Big.getRtype_app _ (Lookup.encName_pos _) (by omega)⟩, ha]
    rfl
  unfold answer
  rw [hq, Res.ok_bind]
  simp only [e1, e2, e3, rfc8482_eq (k := k) (by omega)]
  refine ⟨_, rfl, rfc8482_is h.labels, ?_⟩
  have h12 : (allMsg k).header.length = 12 := rfl
  have hql : (allMsg k).question.length = (encName k.name).length + 4 := by simp [allMsg, Msg.question, be16]
  rw [List.length_append, List.length_append, h12, hql]
  simp only [List.length_cons, List.length_nil]
  omega

end Server
end Mara
