import Verif.Mara.ServerProps
import Verif.Deadwood.IncomingProps
/-!
# From the authoritative server to the resolver: messages

A message that the server sends is one that the resolver reads.
-/

namespace Interop
open Spec
open Dw.Dissect Dw.Incoming

/-- A record whose names have fewer than 100 labels, with a time to live that is not negative as a signed number, and with
the whole of its address. -/
structure Light (r : Rec) : Prop where
  sound : r.Sound
  name : r.name.length < 100
  names : ∀ x ∈ r.names, x.length < 100
  ttl : r.ttl < 2147483648
  aaaa : r.type = 28 → 16 ≤ r.rdata.length
  cls : r.cls = be16 1

theorem sameNames_short : ∀ {a b : List Name}, SameNames a b → (∀ x ∈ a, x.length < 100) → ∀ x ∈ b, x.length < 100
  | [], [], _, _ => by simp
  | a :: as, b :: bs, h, ha => by
    intro x hx
    rcases List.mem_cons.1 hx with rfl | hx
    · rw [← Dw.Dissect.sameName_length h.1]; exact ha a (by simp)
    · exact sameNames_short h.2 (fun y hy => ha y (by simp [hy])) x hx

theorem Light.same {r r' : Rec} (h : SameRec r r') (hr : Light r) : Light r' where
  sound := Mara.Comp.sameRec_sound hr.sound h
  name := by rw [← Dw.Dissect.sameName_length h.name]; exact hr.name
  names := sameNames_short h.names hr.names
  ttl := h.ttl ▸ hr.ttl
  aaaa e := by
    rw [← Dw.DwStr.sameRec_rdata h]
    exact hr.aaaa (h.type.trans e)
  cls := h.cls ▸ hr.cls

/-- A message the server sends and the resolver reads. -/
structure Fine (m : Msg) : Prop where
  head : m.head.length = 4
  qname : NameOk m.qname
  printable : ∀ l ∈ m.qname, ∀ x ∈ l, 32 ≤ x.toNat
  qtype : m.qtype < 65392 ∨ 65407 < m.qtype ∧ m.qtype < 65536
  recs : ∀ r ∈ m.all, Light r
  some : m.all ≠ []
  size : m.bytes.length < 1024

theorem all_same {m p : Msg} (h : m.Same p) : SameRecs m.all p.all :=
  Dw.DwStr.sameRecs_join (Dw.DwStr.sameRecs_join h.an h.ns) h.ar

theorem named_from {mem : Mem} {qn : Name} {i e : Nat} {ns : List Name}
    (h : NamesVia (fun i ls => ∃ n, n ≤ 2 * ls.length ∧ NameFrom mem qn n i ls) mem i ns e) :
    (∀ x ∈ ns, x.length < 100) → NamesVia (ReadFrom mem qn) mem i ns e := by
  induction h with
  | nil => intro _; exact .nil
  | cons a b _ ih =>
    intro hs
    obtain ⟨n, h1, h2⟩ := a
    have := hs _ List.mem_cons_self
    exact .cons ⟨n, by omega, h2⟩ b (ih fun x hx => hs x (by simp [hx]))

theorem recs_from {mem : Mem} {qn : Name} {i e : Nat} {rs : List Rec}
    (h : RecsVia (fun i ls => ∃ n, n ≤ 2 * ls.length ∧ NameFrom mem qn n i ls) mem i rs e) :
    (∀ r ∈ rs, Light r) → RecsVia (ReadFrom mem qn) mem i rs e := by
  induction h with
  | nil => intro _; exact .nil
  | cons hr _ ih =>
    intro hs
    have h0 := hs _ List.mem_cons_self
    obtain ⟨a, k, ⟨n, g1, g2⟩, h2, h3, h4, h5, h6, h7, h8, h9⟩ := hr.at_
    have := h0.name
    exact .cons ⟨a, k, ⟨n, by omega, g2⟩, h2, h3, h4, h5, h6, named_from h7 h0.names, h8, h9⟩ (ih fun r hr => hs r (by simp [hr]))

/-- What is sent of a message is read as that message. -/
theorem carried_read {m : Msg} {c : List UInt8} (h : m.Carried c) (hm : Fine m) :
    ∃ p, m.Same p ∧ p.From c ∧ p.Plain ∧ (∀ r ∈ p.all, Light r) := by
  obtain ⟨p, hs, hi, hc⟩ := h
  have hall := all_same hs
  have hl : ∀ r ∈ p.all, Light r := sameRecs_forall (P := Light) (fun r r' h hr => hr.same h) hall hm.recs
  have hok : ∀ r ∈ p.all, r.Ok := fun r hr => (hl r hr).sound.ok
  have hmo : ∀ r ∈ m.all, r.Ok := fun r hr => (hm.recs r hr).sound.ok
  have hin : ∀ r ∈ p.an, r ∈ p.all := fun r hr => by unfold Msg.all; simp [hr]
  refine ⟨p, hs, ⟨hi.front, recs_from hc hl⟩, ⟨hs.head ▸ hm.head, hs.qname ▸ hm.qname, hs.qname ▸ hm.printable, hs.qtype ▸ hm.qtype, ?_, ?_, ?_, ?_, ?_⟩, hl⟩
  · exact fun r hr => ⟨hok r hr, (hl r hr).sound.name, (hl r hr).sound.names⟩
  · intro r hr ht
    have := (hl r (hin r hr)).sound.a ht
    unfold Rec.rdata
    simp only [List.length_append]
    omega
  · exact fun r hr ht => (hl r (hin r hr)).aaaa ht
  · intro e
    have := Dw.DwStr.sameRecs_length hall
    rw [e] at this
    exact hm.some (List.length_eq_zero_iff.1 (by simpa using this))
  · have e1 : p.answers.all = p.all := rfl
    rw [packed_length (by rw [e1]; exact hok), e1]
    have h1 := Dw.DwStr.sameRecs_all hall hmo
    have h2 := hm.size
    unfold Msg.bytes at h2
    have h3 : ((m.all.map Rec.toRR).flatMap RR.enc).length = sizes (m.all.map Rec.toRR) := Dw.encs_length (by
      intro r hr
      obtain ⟨x, hx, rfl⟩ := List.mem_map.1 hr
      exact Dw.DwStr.Rec.toRR_ok (hmo x hx))
    have h4 : ∀ l : List Rec, 10 * l.length ≤ sizes (l.map Rec.toRR) := by
      intro l
      induction l with
      | nil => simp
      | cons x l ih =>
        simp only [sizes, List.map_cons, List.sum_cons, List.length_cons] at ih ⊢
        have : 10 ≤ x.toRR.size := by unfold RR.size; omega
        omega
    rw [List.length_append, List.length_append] at h2
    have := h4 m.all
    have := Dw.DwStr.sameRecs_length hall
    omega

end Interop
