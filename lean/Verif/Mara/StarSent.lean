import Verif.Mara.StarModel
import Verif.Mara.ReplySent
/-!
# Lemmas: replies for star records and denials
-/

namespace Mara
namespace Reply

open Spec
open Dw (Res)
open Lookup (getRtype changeRtype)

/-- A reply that is sent for the message `m` by the functions that do not take records away: the message
if it has at most 512 bytes with its names compressed; else nothing but its header, marked as cut short;
a server failure if it is too long for the server, or has too many labels for it. -/
inductive SentOnce (m : Msg) (id : Nat) (rd : Bool) : List UInt8 → Prop
  | whole {c} : m.bytes.length < 1024 → m.Carried c → c.length ≤ 512 → SentOnce m id rd c
  | cut : 512 < m.bytes.length → (∀ c, Comp.compress m.bytes 1024 1024 = .ok c → 512 < c.length) → SentOnce m id rd m.cutHeader
  | failed : 1024 ≤ m.bytes.length ∨ 150 < m.labels → SentOnce m id rd (serverFailure id rd)

theorem makeHdr_cut (h : Hdr) (ho : h.opcode = 0) (ht : h.tc = false) {a b x y : UInt8} {r : List UInt8} (e : makeHdr h = a :: b :: x :: y :: r) :
    makeHdr { h with tc := true } = a :: b :: (x ||| 2) :: y :: r := by
  unfold makeHdr put16 at e ⊢
  simp only [List.cons_append, List.nil_append, List.cons.injEq] at e ⊢
  obtain ⟨e1, e2, e3, e4, e5⟩ := e
  refine ⟨e1, e2, ?_, e4, e5⟩
  rw [← e3, ho, ht]
  cases h.qr <;> cases h.aa <;> cases h.rd <;> decide

theorem sendOnce_sent {m : Msg} (hm : m.Sound) (hb : m.bytes.length < 1024) {hdr : Hdr} (hh : makeHdr hdr = m.header) (ho : hdr.opcode = 0)
    (ht : hdr.tc = false) (rd : Bool) : ∃ r, sendOnce hdr m.bytes rd = .ok r ∧ SentOnce m hdr.id rd r := by
  unfold sendOnce
  rcases Comp.compress_clear hm (um := 1024) (om := 1024) hb with h | ⟨c, p', h1, h2, h3, h3', h4, h5⟩
  · rw [h]
    refine ⟨_, rfl, ?_⟩
    rw [servfail_eq]
    refine .failed ?_
    by_contra hn
    obtain ⟨c, p', h1, -⟩ := Comp.compress_carries hm (um := 1024) (om := 1024) hb hb (by omega) (by omega)
    rw [h] at h1
    cases h1
  · rw [h1]
    refine ⟨_, rfl, ?_⟩
    by_cases hl : c.length > 512
    · rw [if_pos hl]
      obtain ⟨a, b, x, y, e⟩ := head_cases hm.head
      have hx : makeHdr hdr = a :: b :: x :: y :: (be16 1 ++ be16 m.an.length ++ be16 m.ns.length ++ be16 m.ar.length) := by
        rw [hh]; unfold Msg.header; rw [e]; simp
      have hcut := makeHdr_cut hdr ho ht hx
      have : m.cutHeader = makeHdr { hdr with tc := true } := by
        rw [hcut]
        unfold Msg.cutHeader
        rw [e]
        simp
      rw [← this]
      refine .cut (by omega) ?_
      intro c' hc'
      rw [h1] at hc'
      cases hc'
      exact hl
    · rw [if_neg hl]
      exact .whole hb ⟨p', h2, h3, h3'⟩ (by omega)

theorem codeByte' {rcode : Nat} (h : rcode ≤ 15) : (if false = true then (128 : UInt8) else 0) ||| (UInt8.ofNat 0 &&& 7) <<< 4 ||| (UInt8.ofNat rcode &&& 15) = UInt8.ofNat rcode := by
  have : ∀ r : Fin 16, (if false = true then (128 : UInt8) else 0) ||| (UInt8.ofNat 0 &&& 7) <<< 4 ||| (UInt8.ofNat r.val &&& 15) = UInt8.ofNat r.val := by decide +kernel
  exact this ⟨rcode, by omega⟩

theorem denialHead_eq (id an ns ar : Nat) (aa rd : Bool) {rcode : Nat} (h : rcode ≤ 15) :
    makeHdr { id := id, qr := true, aa := aa, rd := rd, rcode := rcode, qd := 1, an := an, ns := ns, ar := ar } =
      denialHead id aa rd rcode ++ be16 1 ++ be16 an ++ be16 ns ++ be16 ar := by
  unfold makeHdr denialHead
  rw [flagByte aa rd, codeByte' h]
  rfl

/-- The question with the header before it. -/
theorem question_fits {qname : List (List UInt8)} (hq : NameOk qname) (t : Nat) (h : Hdr) :
    append 1024 (makeHdr h) (encName qname ++ be16 t) = some (makeHdr h ++ (encName qname ++ be16 t)) ∧
    append 1024 (makeHdr h ++ (encName qname ++ be16 t)) (put16 1) = some (makeHdr h ++ (encName qname ++ be16 t) ++ be16 1) := by
  have := hq.2
  constructor
  · unfold append
    rw [if_neg]
    rw [makeHdr_length]
    simp [be16]; omega
  · unfold append
    rw [if_neg]
    · rfl
    · rw [List.length_append, makeHdr_length]
      simp [be16, put16]; omega

/-- The message of a denial. -/
def denialMsg (id : Nat) (aa rd : Bool) (rcode : Nat) (qname : List (List UInt8)) (t : Nat) (soa : Rec) : Msg where
  head := denialHead id aa rd rcode
  qname := qname
  qtype := t
  qclass := 1
  an := []
  ns := [soa]
  ar := []

/-- What `udpnotfound` sends; `soa` is the record as it is shown. -/
theorem udpnotfound_sent {p : Node} {soa : Rec} {qname : List (List UInt8)} (hq : NameOk qname) {t : Nat} (ht : t < 65536)
    (hs : Holds { p with query := if p.query.head? = some 95 then encName qname ++ be16 6 else p.query } soa)
    {rcode : Nat} (hr : rcode ≤ 15) (id : Nat) (rd : Bool) :
    ∃ r, udpnotfound p rcode id (encName qname ++ be16 t) rd = .ok r ∧ SentOnce (denialMsg id p.auth rd rcode qname t soa) id rd r := by
  unfold udpnotfound
  have hdata : p.data.length ≤ 65535 := by
    have h1 := hs.data
    simp only at h1
    rw [h1]
    have := hs.sound.ok.size
    omega
  dsimp only
  rw [if_neg (by omega)]
  obtain ⟨q1, q2⟩ := question_fits hq t { id := id, rd := rd }
  rw [q1]
  dsimp only
  have hc : ∀ u, u < 65536 → changeRtype (encName qname ++ be16 t) u = some (encName qname ++ be16 u) := fun u hu => Lookup.changeRtype_key qname t u hu
  rw [hc 0 (by omega), if_neg (by simp), q2]
  dsimp only
  have hname : (if p.query.head? = some 95 then changeRtype (encName qname ++ be16 t) 6 else some p.query) =
      some (if p.query.head? = some 95 then encName qname ++ be16 6 else p.query) := by
    rw [hc 6 (by omega)]
    split <;> rfl
  rw [hname]
  dsimp only
  rw [put_eq hs]
  have hbytes : (denialMsg id p.auth rd rcode qname t soa).bytes =
      makeHdr { id := id, qr := true, aa := p.auth, rd := rd, rcode := rcode, qd := 1, ns := 1 } ++ (encName qname ++ be16 t ++ be16 1 ++ soa.toRR.enc) := by
    rw [denialHead_eq _ _ _ _ _ _ hr]
    unfold Msg.bytes Msg.header Msg.question Msg.all denialMsg
    simp
  have hlen : (makeHdr { id := id, rd := rd } ++ (encName qname ++ be16 t) ++ be16 1).length + soa.toRR.enc.length =
      (denialMsg id p.auth rd rcode qname t soa).bytes.length := by
    rw [hbytes]
    simp only [List.length_append, makeHdr_length]
    omega
  rw [hlen]
  by_cases hbig : (denialMsg id p.auth rd rcode qname t soa).bytes.length ≥ 1024
  · rw [if_pos hbig]
    exact ⟨_, rfl, by rw [servfail_eq]; exact .failed (.inl hbig)⟩
  · rw [if_neg hbig]
    dsimp only
    have hdrop : (makeHdr { id := id, rd := rd } ++ (encName qname ++ be16 t) ++ be16 1 ++ soa.toRR.enc).drop 12 =
        encName qname ++ be16 t ++ be16 1 ++ soa.toRR.enc := by
      have : makeHdr { id := id, rd := rd } ++ (encName qname ++ be16 t) ++ be16 1 ++ soa.toRR.enc =
          makeHdr { id := id, rd := rd } ++ (encName qname ++ be16 t ++ be16 1 ++ soa.toRR.enc) := by simp
      rw [this, List.drop_left' (makeHdr_length _)]
    rw [hdrop, ← hbytes]
    refine sendOnce_sent (m := denialMsg id p.auth rd rcode qname t soa) ?_ (by omega) ?_ rfl rfl rd
    · refine ⟨?_, hq, ht, by show (1 : Nat) < 65536; omega, ?_, ?_, ?_, ?_⟩
      · cases p.auth <;> cases rd <;> rfl
      · intro r hr
        have : r = soa := by simpa [Msg.all, denialMsg] using hr
        rw [this]
        exact hs.sound
      · show 0 < 65536; omega
      · show 1 < 65536; omega
      · show 0 < 65536; omega
    · rw [denialHead_eq _ _ _ _ _ _ hr]
      rfl

/-! ## Star records -/

/-- The addresses that `udpstar` adds: one for each record that names a host. -/
def starAddrs (h : Heap) (l : List Nat) : List Nat :=
  l.filterMap fun i => match h[i]? with
    | some p => if p.type = 5 then none else p.ip
    | none => none

/-- What is written so far. -/
structure StarSim (shown rec : Nat → Rec) (base : List UInt8) (s : Star) (a n r : List Nat) : Prop where
  most : s.most = base ++ enc shown a ++ enc shown n
  ar : s.ar = enc rec r
  an : s.an = a.length
  ns : s.ns = n.length
  arc : s.arc = r.length

/-- The strings are large enough. -/
def StarRoom (shown rec : Nat → Rec) (base : List UInt8) (an ns ar : List Nat) : Prop :=
  (base ++ enc shown an ++ enc shown ns).length < 1024 ∧ (enc rec ar).length < 1024

theorem starRoom_mono {shown rec : Nat → Rec} {base : List UInt8} {an ns ar an' ns' ar' : List Nat}
    (h : StarRoom shown rec base an' ns' ar') (h1 : an <+: an') (h2 : ns <+: ns') (h3 : ar <+: ar') : StarRoom shown rec base an ns ar := by
  obtain ⟨x, rfl⟩ := h1
  obtain ⟨y, rfl⟩ := h2
  obtain ⟨z, rfl⟩ := h3
  unfold StarRoom at h ⊢
  rw [enc_append, enc_append, enc_append] at h
  simp only [List.length_append] at h ⊢
  omega

theorem enc_snoc (rec : Nat → Rec) (l : List Nat) (i : Nat) : enc rec (l ++ [i]) = enc rec l ++ (rec i).toRR.enc := by
  rw [enc_append, enc_one]

theorem put_type (max : Nat) (out q : List UInt8) (p : Node) (t : Nat) : put max out { p with query := q } = put max out { p with query := q, type := t } := rfl

/-- The name a record is shown with, and the record with it. -/
structure Shows (answer : List UInt8) (labels : Nat) (inNs : Bool) (p : Node) (r : Rec) : Prop where
  name : ∃ q, starName answer labels inNs p = .ok (some q) ∧ Holds { p with query := q, type := r.type } r

theorem starAddr_sim {shown rec : Nat → Rec} {base : List UInt8} {h : Heap} {i : Nat} {p : Node} (hp : h[i]? = some p) {s : Star} {an ns ar : List Nat}
    (hs : StarSim shown rec base s an ns ar) (hip : ∀ a, p.ip = some a → p.type ≠ 5 → ∃ q, h[a]? = some q ∧ Holds q (rec a))
    (hr : (base ++ enc shown an ++ enc shown ns).length < 1024) (hr' : (enc rec ar).length < 1024) :
    ∃ o, starAddr h p s = .ok o ∧
      ((∃ s', o = some s' ∧ StarSim shown rec base s' an ns (ar ++ starAddrs h [i]) ∧ StarRoom shown rec base an ns (ar ++ starAddrs h [i])) ∨
        (o = none ∧ ¬ StarRoom shown rec base an ns (ar ++ starAddrs h [i]))) := by
  have hone : starAddrs h [i] = (if p.type = 5 then none else p.ip).toList := by
    unfold starAddrs
    simp only [List.filterMap_cons, hp, List.filterMap_nil]
    cases (if p.type = 5 then none else p.ip) <;> rfl
  unfold starAddr
  cases hq : p.ip with
  | none =>
    refine ⟨_, rfl, .inl ⟨s, rfl, ?_⟩⟩
    rw [hone, hq, ite_self, Option.toList_none, List.append_nil]
    exact ⟨hs, hr, hr'⟩
  | some a =>
    dsimp only
    by_cases h5 : p.type = 5
    · rw [if_pos h5]
      refine ⟨_, rfl, .inl ⟨s, rfl, ?_⟩⟩
      rw [hone, if_pos h5, Option.toList_none, List.append_nil]
      exact ⟨hs, hr, hr'⟩
    · rw [if_neg h5, hone, if_neg h5, hq, Option.toList_some]
      obtain ⟨q, hq1, hq2⟩ := hip a hq h5
      rw [show deref h a = .ok q by unfold deref; rw [hq1], Res.ok_bind, put_eq hq2, hs.ar]
      refine ⟨_, rfl, ?_⟩
      by_cases hb : (enc rec ar).length + (rec a).toRR.enc.length ≥ 1024
      · rw [if_pos hb]
        refine .inr ⟨rfl, ?_⟩
        unfold StarRoom
        rw [enc_snoc, List.length_append (as := enc rec ar)]
        omega
      · rw [if_neg hb]
        refine .inl ⟨_, rfl, ⟨hs.most, ?_, hs.an, hs.ns, ?_⟩, hr, ?_⟩
        · rw [enc_snoc]
        · simp [hs.arc]
        · rw [enc_snoc, List.length_append]; omega

theorem starAddrs_cons (h : Heap) (i : Nat) (l : List Nat) : starAddrs h (i :: l) = starAddrs h [i] ++ starAddrs h l := by
  unfold starAddrs
  rw [← List.filterMap_append]
  rfl

/-- The rest of the chain. -/
theorem starLoop_sim {shown rec : Nat → Rec} {base : List UInt8} {h : Heap} {t : Nat} {answer : List UInt8} {labels : Nat} :
    ∀ (as nss : List Nat) (n : Nat) (o : Option Nat) (inNs : Bool) (s : Star) (an ns ar : List Nat),
    Chain h o (as ++ nss) → (as ++ nss).length ≤ n →
    (inNs = true → as = []) → (as ≠ [] → ns = []) →
    (∀ i ∈ as, ∀ p, h[i]? = some p → ¬ (t ≠ 2 ∧ p.type = 2) ∧ Shows answer labels false p (shown i)) →
    (∀ i ∈ nss, ∀ p, h[i]? = some p → (t ≠ 2 ∧ p.type = 2) ∧ Shows answer labels true p (shown i)) →
    (∀ i ∈ as ++ nss, ∀ p a, h[i]? = some p → p.ip = some a → p.type ≠ 5 → ∃ q, h[a]? = some q ∧ Holds q (rec a)) →
    StarSim shown rec base s an ns ar → StarRoom shown rec base an ns ar →
    ∃ r, starLoop h t answer labels n o inNs s = .ok r ∧
      ((∃ s', r = some s' ∧ StarSim shown rec base s' (an ++ as) (ns ++ nss) (ar ++ starAddrs h (as ++ nss)) ∧
          StarRoom shown rec base (an ++ as) (ns ++ nss) (ar ++ starAddrs h (as ++ nss))) ∨
        (r = none ∧ ¬ StarRoom shown rec base (an ++ as) (ns ++ nss) (ar ++ starAddrs h (as ++ nss))))
  | [], [], n, o, inNs, s, an, ns, ar, hc, _, _, _, _, _, _, hs, hr => by
    cases hc
    refine ⟨_, by unfold starLoop; rfl, .inl ⟨s, rfl, ?_⟩⟩
    simp only [List.append_nil, starAddrs, List.filterMap_nil]
    exact ⟨hs, hr⟩
  | [], i :: l, 0, o, inNs, s, an, ns, ar, hc, hn, _, _, _, _, _, _, _ => by simp at hn
  | i :: l, _, 0, o, inNs, s, an, ns, ar, hc, hn, _, _, _, _, _, _, _ => by simp at hn
  | [], i :: l, n + 1, o, inNs, s, an, ns, ar, hc, hn, _, _, hA, hN, hip, hs, hr => by
    cases hc with
    | @cons _ p _ hp hc =>
    obtain ⟨hty, ⟨q, hq1, hq2⟩⟩ := hN i (by simp) p hp
    unfold starLoop
    rw [show deref h i = .ok p by unfold deref; rw [hp], Res.ok_bind]
    dsimp only
    rw [show (inNs || decide (t ≠ 2 ∧ p.type = 2)) = true by simp [hty.1, hty.2], hq1, Res.ok_bind, Option.bind_some, put_type _ _ _ _ (shown i).type, put_eq hq2, hs.most]
    have hlen : (base ++ enc shown an ++ enc shown (ns ++ [i])).length = (base ++ enc shown an ++ enc shown ns).length + (shown i).toRR.enc.length := by
      rw [enc_snoc]; simp only [List.length_append]; omega
    rw [← hlen]
    rw [List.nil_append, starAddrs_cons, ← List.append_assoc ar, show ns ++ i :: l = (ns ++ [i]) ++ l by simp]
    by_cases hb : (base ++ enc shown an ++ enc shown (ns ++ [i])).length ≥ 1024
    · rw [if_pos hb]
      refine ⟨_, rfl, .inr ⟨rfl, ?_⟩⟩
      intro hroom
      have := (starRoom_mono hroom (an := an) (ns := ns ++ [i]) (ar := ar) (List.prefix_append _ _) (List.prefix_append _ _)
        (by rw [List.append_assoc]; exact List.prefix_append _ _)).1
      omega
    · rw [if_neg hb]
      dsimp only
      have hs1 : StarSim shown rec base { s with most := base ++ enc shown an ++ enc shown ns ++ (shown i).toRR.enc, an := s.an, ns := s.ns + 1 } an (ns ++ [i]) ar :=
        ⟨by rw [enc_snoc]; simp, hs.ar, hs.an, by simp [hs.ns], hs.arc⟩
      obtain ⟨r, hr1, hr2⟩ := starAddr_sim hp hs1 (fun a => hip i (by simp) p a hp) (by omega) hr.2
      simp only [if_true]
      rw [hr1, Res.ok_bind]
      rcases hr2 with ⟨s', rfl, hs', hroom'⟩ | ⟨rfl, hno⟩
      · dsimp only
        have := starLoop_sim [] l n p.next true s' an (ns ++ [i]) (ar ++ starAddrs h [i]) hc (by simpa using hn) (fun _ => rfl) (by simp) (by simp)
          (fun j hj => hN j (List.mem_cons_of_mem _ hj)) (fun j hj => hip j (List.mem_cons_of_mem _ hj)) hs' hroom'
        simpa using this
      · refine ⟨_, rfl, .inr ⟨rfl, ?_⟩⟩
        intro hroom
        exact hno (starRoom_mono hroom (List.prefix_append _ _) (List.prefix_append _ _) (List.prefix_append _ _))
  | i :: l, nss, n + 1, o, inNs, s, an, ns, ar, hc, hn, hin, hns, hA, hN, hip, hs, hr => by
    cases hc with
    | @cons _ p _ hp hc =>
    obtain ⟨hty, ⟨q, hq1, hq2⟩⟩ := hA i (by simp) p hp
    have hin' : inNs = false := by
      cases inNs with
      | false => rfl
      | true => cases hin rfl
    have hns' : ns = [] := hns (by simp)
    subst hns' hin'
    unfold starLoop
    rw [show deref h i = .ok p by unfold deref; rw [hp], Res.ok_bind]
    dsimp only
    rw [show (false || decide (t ≠ 2 ∧ p.type = 2)) = false by simp only [Bool.false_or, decide_eq_false_iff_not]; exact hty,
      hq1, Res.ok_bind, Option.bind_some, put_type _ _ _ _ (shown i).type, put_eq hq2, hs.most]
    have hlen : (base ++ enc shown (an ++ [i]) ++ enc shown []).length = (base ++ enc shown an ++ enc shown []).length + (shown i).toRR.enc.length := by
      rw [enc_snoc]; simp only [List.length_append]; omega
    rw [← hlen]
    rw [List.cons_append, starAddrs_cons, ← List.append_assoc ar, show an ++ i :: l = (an ++ [i]) ++ l by simp]
    by_cases hb : (base ++ enc shown (an ++ [i]) ++ enc shown []).length ≥ 1024
    · rw [if_pos hb]
      refine ⟨_, rfl, .inr ⟨rfl, ?_⟩⟩
      intro hroom
      have := (starRoom_mono hroom (an := an ++ [i]) (ns := []) (ar := ar) (List.prefix_append _ _) List.nil_prefix
        (by rw [List.append_assoc]; exact List.prefix_append _ _)).1
      omega
    · rw [if_neg hb]
      dsimp only
      have hs1 : StarSim shown rec base { s with most := base ++ enc shown an ++ enc shown [] ++ (shown i).toRR.enc, an := s.an + 1, ns := s.ns } (an ++ [i]) [] ar :=
        ⟨by rw [enc_snoc]; simp [enc], hs.ar, by simp [hs.an], hs.ns, hs.arc⟩
      obtain ⟨r, hr1, hr2⟩ := starAddr_sim hp hs1 (fun a => hip i (by simp) p a hp) (by omega) hr.2
      simp only [Bool.false_eq_true, if_false]
      rw [hr1, Res.ok_bind]
      rcases hr2 with ⟨s', rfl, hs', hroom'⟩ | ⟨rfl, hno⟩
      · dsimp only
        have := starLoop_sim l nss n p.next false s' (an ++ [i]) [] (ar ++ starAddrs h [i]) hc (by simpa using hn) (by simp) (fun _ => rfl)
          (fun j hj => hA j (List.mem_cons_of_mem _ hj))
          hN (fun j hj => hip j (List.mem_cons_of_mem _ hj)) hs' hroom'
        simpa using this
      · refine ⟨_, rfl, .inr ⟨rfl, ?_⟩⟩
        intro hroom
        exact hno (starRoom_mono hroom (List.prefix_append _ _) List.nil_prefix (List.prefix_append _ _))

/-- The message for a star record. -/
def starMsg (shown rec : Nat → Rec) (id : Nat) (aa : Bool) (qname : List (List UInt8)) (t : Nat) (an ns ar : List Nat) : Msg where
  head := answerHead id aa false
  qname := qname
  qtype := t
  qclass := 1
  an := an.map shown
  ns := ns.map shown
  ar := ar.map rec

theorem starMsg_bytes (shown rec : Nat → Rec) (id : Nat) (aa : Bool) (qname : List (List UInt8)) (t : Nat) (an ns ar : List Nat) :
    (starMsg shown rec id aa qname t an ns ar).bytes =
      makeHdr { id := id, qr := true, aa := aa, qd := 1, an := an.length, ns := ns.length, ar := ar.length } ++
        (encName qname ++ be16 t ++ be16 1) ++ enc shown an ++ enc shown ns ++ enc rec ar := by
  rw [answerHead_eq, enc_map, enc_map, enc_map]
  unfold Msg.bytes Msg.header Msg.question Msg.all starMsg
  simp

theorem enc_size (rec : Nat → Rec) (l : List Nat) : l.length ≤ (enc rec l).length := by
  have := enc_length rec l
  omega

/-- What `udpstar` sends. -/
theorem udpstar_sent {shown rec : Nat → Rec} {h : Heap} {qname : List (List UInt8)} (hq : NameOk qname) {t : Nat} (ht : t < 65536) {answer : List UInt8} {labels : Nat}
    {first : Nat} {p : Node} (hf : h[first]? = some p) {as nss : List Nat} (hc : Chain h (some first) (as ++ nss)) (hlen : (as ++ nss).length ≤ h.length)
    (hA : ∀ i ∈ as, ∀ p, h[i]? = some p → ¬ (t ≠ 2 ∧ p.type = 2) ∧ Shows answer labels false p (shown i))
    (hN : ∀ i ∈ nss, ∀ p, h[i]? = some p → (t ≠ 2 ∧ p.type = 2) ∧ Shows answer labels true p (shown i))
    (hip : ∀ i ∈ as ++ nss, ∀ p a, h[i]? = some p → p.ip = some a → p.type ≠ 5 → ∃ q, h[a]? = some q ∧ Holds q (rec a))
    (id : Nat) (rd : Bool) :
    ∃ r, udpstar h first id (encName qname ++ be16 t) answer rd labels = .ok r ∧
      SentOnce (starMsg shown rec id p.auth qname t as nss (starAddrs h (as ++ nss))) id rd r := by
  have hfirst : ∃ r : Rec, r.Sound ∧ p.data = r.rdata := by
    have hmem : first ∈ as ++ nss := by
      generalize as ++ nss = l at hc
      cases hc; simp
    rcases List.mem_append.1 hmem with hm | hm
    · obtain ⟨-, ⟨q, -, h2⟩⟩ := hA first hm p hf
      exact ⟨_, h2.sound, h2.data⟩
    · obtain ⟨-, ⟨q, -, h2⟩⟩ := hN first hm p hf
      exact ⟨_, h2.sound, h2.data⟩
  obtain ⟨r0, hr0, hd0⟩ := hfirst
  have hsize : p.data.length ≤ 65535 := by
    rw [hd0]
    have := hr0.ok.size
    omega
  unfold udpstar
  rw [show deref h first = .ok p by unfold deref; rw [hf], Res.ok_bind]
  have hk : getRtype (encName qname ++ be16 t) = some t := Lookup.getRtype_key qname t ht
  rw [hk]
  dsimp only
  rw [if_neg (by omega)]
  obtain ⟨q1, q2⟩ := question_fits hq t { id := id, rd := rd }
  rw [q1]
  dsimp only
  rw [q2]
  dsimp only
  have hbase : (makeHdr { id := id, rd := rd } ++ (encName qname ++ be16 t) ++ be16 1).length = 12 + ((encName qname).length + 2) + 2 := by
    simp only [List.length_append, makeHdr_length]; rfl
  have hqlen := hq.2
  obtain ⟨r, hr1, hr2⟩ := starLoop_sim (shown := shown) (rec := rec) (base := makeHdr { id := id, rd := rd } ++ (encName qname ++ be16 t) ++ be16 1)
    (answer := answer) (labels := labels) as nss (h.length + 1) (some first) false
    { most := makeHdr { id := id, rd := rd } ++ (encName qname ++ be16 t) ++ be16 1 } [] [] [] hc (by omega) (by simp) (by simp) hA hN hip
    ⟨by simp [enc], by simp [enc], rfl, rfl, rfl⟩ (by unfold StarRoom enc; simp only [List.map_nil, List.flatMap_nil, List.append_nil]; rw [hbase]; simp; omega)
  rw [hr1, Res.ok_bind]
  simp only [List.nil_append] at hr2
  generalize har : starAddrs h (as ++ nss) = ar at *
  have hbytes := starMsg_bytes shown rec id p.auth qname t as nss ar
  have hblen : (starMsg shown rec id p.auth qname t as nss ar).bytes.length =
      (makeHdr { id := id, rd := rd } ++ (encName qname ++ be16 t) ++ be16 1 ++ enc shown as ++ enc shown nss).length + (enc rec ar).length := by
    rw [hbytes]
    simp only [List.length_append, makeHdr_length]
    omega
  rcases hr2 with ⟨s, rfl, hs, hroom⟩ | ⟨rfl, hno⟩
  · dsimp only
    have hmost : makeHdr { id := id, qr := true, aa := p.auth, qd := 1, an := s.an, ns := s.ns, ar := s.arc } ++ s.most.drop 12 =
        makeHdr { id := id, qr := true, aa := p.auth, qd := 1, an := as.length, ns := nss.length, ar := ar.length } ++
        (encName qname ++ be16 t ++ be16 1) ++ enc shown as ++ enc shown nss := by
      rw [hs.an, hs.ns, hs.arc, hs.most]
      have : makeHdr { id := id, rd := rd } ++ (encName qname ++ be16 t) ++ be16 1 ++ enc shown as ++ enc shown nss =
          makeHdr { id := id, rd := rd } ++ ((encName qname ++ be16 t ++ be16 1) ++ enc shown as ++ enc shown nss) := by simp
      rw [this, List.drop_left' (makeHdr_length _)]
      simp
    rw [hmost, hs.ar, hs.an, hs.ns, hs.arc]
    have hl2 : (makeHdr { id := id, qr := true, aa := p.auth, qd := 1, an := as.length, ns := nss.length, ar := ar.length } ++
        (encName qname ++ be16 t ++ be16 1) ++ enc shown as ++ enc shown nss).length + (enc rec ar).length =
        (starMsg shown rec id p.auth qname t as nss ar).bytes.length := by
      rw [hbytes, List.length_append (bs := enc rec ar)]
    unfold append
    rw [hl2, ← hbytes]
    by_cases hbig : (starMsg shown rec id p.auth qname t as nss ar).bytes.length ≥ 1024
    · rw [if_pos hbig]
      exact ⟨_, rfl, by rw [servfail_eq]; exact .failed (.inl hbig)⟩
    · rw [if_neg hbig]
      dsimp only
      refine sendOnce_sent (m := starMsg shown rec id p.auth qname t as nss ar) ?_ (by omega) ?_ rfl rfl rd
      · have hcl : ∀ l, l = as ∨ l = nss → (enc shown l).length < 1024 := by
          intro l hl
          rw [hblen] at hbig
          simp only [List.length_append] at hbig
          rcases hl with rfl | rfl <;> omega
        have hcr : (enc rec ar).length < 1024 := by omega
        have e1 := enc_size shown as
        have e2 := enc_size shown nss
        have e3 := enc_size rec ar
        have c1 := hcl as (.inl rfl)
        have c2 := hcl nss (.inr rfl)
        refine ⟨(answerHead_ok _ _ _).1, hq, ht, by show (1 : Nat) < 65536; omega, ?_, ?_, ?_, ?_⟩
        · intro r hr
          unfold Msg.all starMsg at hr
          rcases List.mem_append.1 hr with hr | hr
          · rcases List.mem_append.1 hr with hr | hr
            · obtain ⟨i, hi, rfl⟩ := List.mem_map.1 hr
              obtain ⟨-, ⟨q, -, h2⟩⟩ := hA i hi _ (List.getElem?_eq_getElem (hc.lt i (List.mem_append_left _ hi)))
              exact h2.sound
            · obtain ⟨i, hi, rfl⟩ := List.mem_map.1 hr
              obtain ⟨-, ⟨q, -, h2⟩⟩ := hN i hi _ (List.getElem?_eq_getElem (hc.lt i (List.mem_append_right _ hi)))
              exact h2.sound
          · obtain ⟨a, ha, rfl⟩ := List.mem_map.1 hr
            rw [← har] at ha
            unfold starAddrs at ha
            obtain ⟨i, hi, hia⟩ := List.mem_filterMap.1 ha
            have hpi := List.getElem?_eq_getElem (hc.lt i hi)
            rw [hpi] at hia
            dsimp only at hia
            split at hia
            · cases hia
            · rename_i h5
              obtain ⟨q, -, h2⟩ := hip i hi _ a hpi hia h5
              exact h2.sound
        · simp only [starMsg, List.length_map]; omega
        · simp only [starMsg, List.length_map]; omega
        · simp only [starMsg, List.length_map]; omega
      · rw [answerHead_eq]
        unfold Msg.header starMsg
        simp
  · dsimp only
    refine ⟨_, rfl, ?_⟩
    rw [servfail_eq]
    refine .failed (.inl ?_)
    unfold StarRoom at hno
    rw [hblen]
    omega

/-! ## The name servers of a default zone -/

theorem zapLabels_eq (tl : List UInt8) : ∀ (n : Nat) (ls : List (List UInt8)) (pre : List UInt8), LabelsOk ls → n ≤ ls.length →
    ∃ p, zapLabels (pre ++ (encName ls ++ tl)) n pre.length = .ok (some p) ∧ (pre ++ (encName ls ++ tl)).drop p = encName (ls.drop n) ++ tl
  | 0, ls, pre, _, _ => ⟨_, rfl, by rw [List.drop_left]; rfl⟩
  | n + 1, [], pre, _, hn => by simp at hn
  | n + 1, l :: ls, pre, hok, hn => by
    obtain ⟨hl1, hl2⟩ := hok l (by simp)
    have he : encName (l :: ls) ++ tl = (UInt8.ofNat l.length :: l) ++ (encName ls ++ tl) := by
      unfold encName; simp [encLabels]
    obtain ⟨p, h1, h2⟩ := zapLabels_eq tl n ls (pre ++ (UInt8.ofNat l.length :: l)) (fun x hx => hok x (List.mem_cons_of_mem _ hx)) (by simpa using hn)
    refine ⟨p, ?_, ?_⟩
    · unfold zapLabels
      have hget : (pre ++ (encName (l :: ls) ++ tl))[pre.length]? = some (UInt8.ofNat l.length) := by
        rw [List.getElem?_append_right (Nat.le_refl _), Nat.sub_self, he]
        rfl
      have hnat : (UInt8.ofNat l.length).toNat = l.length := by
        rw [UInt8.toNat_ofNat']; omega
      have hlen : (pre ++ (encName (l :: ls) ++ tl)).length = pre.length + (l.length + 1) + (encName ls ++ tl).length := by
        rw [he]; simp only [List.length_append, List.length_cons]; omega
      rw [hget]
      dsimp only
      rw [hnat, hlen, if_neg, if_neg (by omega)]
      · have e : pre ++ (encName (l :: ls) ++ tl) = (pre ++ (UInt8.ofNat l.length :: l)) ++ (encName ls ++ tl) := by rw [he]; simp
        rw [e, ← h1]
        congr 1
        simp
      · rintro (h | h)
        · omega
        · have := UInt8.lt_iff_toNat_lt.1 h
          rw [hnat] at this
          simp at this
          omega
    · rw [List.drop_succ_cons, ← h2, he]
      simp

theorem synthNs_eq {qname : List (List UInt8)} (hq : LabelsOk qname) (t : Nat) {n : Nat} (hn : n ≤ qname.length) :
    synthNs (encName qname ++ be16 t) n = .ok (some (encName (qname.drop n) ++ be16 2)) := by
  unfold synthNs
  obtain ⟨p, h1, h2⟩ := zapLabels_eq (be16 t) n qname [] hq hn
  rw [List.nil_append, List.length_nil] at h1
  rw [List.nil_append] at h2
  rw [h1, Res.ok_bind]
  dsimp only
  rw [h2]
  have := Lookup.changeRtype_key (qname.drop n) t 2 (by omega)
  unfold Lookup.key at this
  exact congrArg Res.ok this

end Reply
end Mara
