import Verif.Interop.Carry
import Verif.Deadwood.ReplyMessageProps
/-!
# From the authoritative server to the resolver: what is kept of a message
-/

namespace Interop
open Spec
open Dw (DwStr)
open Dw.Dissect Dw.Incoming

theorem ttl_fold : ∀ {a b : List Rec}, SameRecs a b → ∀ m : Nat,
    b.foldl (fun t r => min t r.ttl) m = a.foldl (fun t r => min t r.ttl) m
  | [], [], _, _ => rfl
  | x :: a, y :: b, h, m => by rw [List.foldl_cons, List.foldl_cons, ttl_fold h.2, h.1.ttl]

theorem take_same : ∀ {a b : List Rec}, SameRecs a b → ∀ n, SameRecs (a.take n) (b.take n)
  | [], [], _, n => by simp [SameRecs]
  | x :: a, y :: b, h, 0 => by simp [SameRecs]
  | x :: a, y :: b, h, n + 1 => ⟨h.1, take_same h.2 n⟩

theorem lifetime_same {cs cs' rest rest' : List Rec} (h1 : SameRecs cs cs') (h2 : SameRecs rest rest') :
    lifetime cs' rest' = lifetime cs rest := by
  unfold lifetime
  rw [ttl_fold (Dw.DwStr.sameRecs_join h1 (take_same h2 1))]

/-- An answer that the server sends, with its aliases in front, is kept by the resolver that asked: exactly what is believed
of it, and for as long as its records allow. -/
theorem carried_answer (cfg : Times) (filter : Bool) (blocked : List UInt8 → Bool) {ns : DwStr} {bs : List (List UInt8)}
    (hs : Servers ns bs) (hctl : ∀ l ∈ bs, ∀ x ∈ l, 32 ≤ x.toNat) (up : Bool) {m : Msg} (hm : Fine m) (h2 : m.rcode ≠ 2)
    {c spare : List UInt8} (h3 : 3 ≤ spare.length) (hc : c.length < 65536) (hcar : m.Carried c)
    (hgood : ∀ r ∈ m.an, r.toRR.bad filter blocked = false)
    (h5 : m.qtype ≠ 5) (h255 : m.qtype ≠ 255) {cs rest : List Rec} (han : m.an = cs ++ rest)
    (hch : Chain m.qname cs) (hrest : ∀ r ∈ rest, r.type ≠ 5)
    (hfound : ∃ r ∈ believed bs m.qname m.qtype rest m.qname cs, r.type = m.qtype)
    (h7 : cs = [] → rest.length ≤ 7) (h32 : m.an.length ≤ 32) (junk : List UInt8) :
    ∃ kept, SameRecs (believed bs m.qname m.qtype rest m.qname cs) kept ∧
      cacheDnsReply cfg filter blocked ns up (c ++ spare) c.length junk =
        .ok (.step ⟨[⟨encName (lowered m.qname) ++ be16 m.qtype, (⟨kept, [], [], 0⟩ : Answers).packed.enc,
          within cfg.min cfg.max (lifetime cs rest)⟩], none, none⟩) := by
  obtain ⟨p, same, hf, hp, hl⟩ := carried_read hcar hm
  have hin : ∀ r ∈ p.an, r ∈ p.all := fun r hr => by unfold Msg.all; simp [hr]
  have hmin : ∀ r ∈ m.an, r ∈ m.all := fun r hr => by unfold Msg.all; simp [hr]
  obtain ⟨cs', rest', e, s1, s2⟩ := Dw.DwStr.sameRecs_append (han ▸ same.an)
  have hq : SameName m.qname m.qname := rfl
  have hbel := believed_congr (z := bs) hq m.qtype s2 s1 hq
  have key := packet_answer cfg filter blocked hs hctl up hp (by unfold Msg.rcode at h2 ⊢; rw [← same.head]; exact h2) h3 hc hf
    (by
      intro r' hr'
      obtain ⟨r, hr, h⟩ : ∃ r ∈ m.an, SameRec r r' := by
        have : ∀ {a b : List Rec}, SameRecs a b → ∀ y ∈ b, ∃ x ∈ a, SameRec x y := by
          intro a
          induction a with
          | nil => intro b h y hy; cases b with
            | nil => cases hy
            | cons => exact h.elim
          | cons x a ih => intro b h y hy; cases b with
            | nil => cases hy
            | cons z b =>
              rcases List.mem_cons.1 hy with rfl | hy
              · exact ⟨x, by simp, h.1⟩
              · obtain ⟨w, hw, hh⟩ := ih h.2 y hy
                exact ⟨w, by simp [hw], hh⟩
        exact this same.an r' hr'
      rw [← bad_same h (hm.recs r (hmin r hr)).sound.ok]
      exact hgood r hr)
    (same.qtype ▸ h5) (same.qtype ▸ h255) e (same.qname ▸ chain_congr s1 hq hch)
    (sameRecs_forall (P := fun r => r.type ≠ 5) (fun r r' h hp => h.type ▸ hp) s2 hrest)
    (by
      rw [← same.qname, ← same.qtype]
      exact sameRecs_exists (P := fun r => r.type = m.qtype) (fun r r' h hp => h.type ▸ hp) hbel hfound)
    (fun r hr => (hl r (hin r hr)).cls)
    (by
      intro hnil
      rw [← Dw.DwStr.sameRecs_length s2]
      apply h7
      have := Dw.DwStr.sameRecs_length s1
      rw [hnil] at this
      exact List.length_eq_zero_iff.1 (by simpa using this))
    (by rw [← Dw.DwStr.sameRecs_length same.an]; exact h32) (fun r hr => (hl r (hin r hr)).ttl) junk
  obtain ⟨kept, k1, k2⟩ := key
  rw [← same.qname, ← same.qtype] at k1 k2
  exact ⟨kept, Dw.Reply.sameRecs_trans hbel k1, by rw [k2, lifetime_same s1 s2]⟩

/-- A denial that the server sends is kept by the resolver that asked, with the SOA record that came along. -/
theorem carried_denial (cfg : Times) (filter : Bool) (blocked : List UInt8 → Bool) {ns : DwStr} {bs : List (List UInt8)}
    (hs : Servers ns bs) (hctl : ∀ l ∈ bs, ∀ x ∈ l, 32 ≤ x.toNat) (up : Bool) {m : Msg} (hm : Fine m) (h2 : m.rcode ≠ 2)
    {c spare : List UInt8} (h3 : 3 ≤ spare.length) (hc : c.length < 65536) (hcar : m.Carried c)
    (han : m.an = []) {soa : Rec} (hns : m.ns = [soa]) (har : m.ar = []) (h6 : soa.type = 6) (junk : List UInt8) :
    ∃ kept, SameRec soa kept ∧
      cacheDnsReply cfg filter blocked ns up (c ++ spare) c.length junk =
        .ok (.step ⟨[⟨encName (lowered m.qname) ++ be16 m.qtype,
          (⟨[], [kept], [], if m.rcode = 3 then 1 else 2⟩ : Answers).packed.enc,
          within cfg.min cfg.max (lifetime [] [soa])⟩], none, none⟩) := by
  obtain ⟨p, same, hf, hp, hl⟩ := carried_read hcar hm
  have hrc : m.rcode = p.rcode := by unfold Msg.rcode; rw [same.head]
  have han' : p.an = [] := by
    have := Dw.DwStr.sameRecs_length same.an
    rw [han] at this
    exact List.length_eq_zero_iff.1 (by simpa using this.symm)
  have har' : p.ar = [] := by
    have := Dw.DwStr.sameRecs_length same.ar
    rw [har] at this
    exact List.length_eq_zero_iff.1 (by simpa using this.symm)
  obtain ⟨r, hns', hr⟩ : ∃ r, p.ns = [r] ∧ SameRec soa r := by
    have := same.ns
    rw [hns] at this
    match hpn : p.ns, this with
    | [r], h => exact ⟨r, rfl, h.1⟩
  have hin : r ∈ p.all := by unfold Msg.all; simp [hns']
  obtain ⟨d, d1, d2⟩ := packet_denial cfg filter blocked hs hctl up hp (hrc ▸ h2) h3 hc hf han' hns' (hr.type ▸ h6)
    (fun r hr => (hl r hr).cls) (hl r hin).ttl junk
  have hden : denial p.answers = ⟨[], [r], [], if m.rcode = 3 then 1 else 2⟩ := by
    unfold denial Msg.answers
    rw [hns', har', hrc]
    simp only [List.filter_nil]
    rw [List.filter_cons_of_pos (by rw [← hr.type, h6]; decide)]
    simp only [List.filter_nil]
    congr 1
    by_cases h : p.rcode = 3 <;> simp [h]
  rw [hden] at d1
  obtain ⟨dan, dns, dar, dk⟩ := d1
  obtain ⟨an', ns', ar', kind'⟩ := d
  simp only at dan dns dar dk
  match an', dan, ns', dns, ar', dar with
  | [], _, [y], h, [], _ =>
    rw [← same.qname, ← same.qtype, ← dk] at d2
    refine ⟨y, Dw.Reply.sameRec_trans hr h.1, ?_⟩
    rw [d2]
    have : lifetime [] [r] = lifetime [] [soa] := lifetime_same (cs := []) (cs' := []) trivial ⟨hr, trivial⟩
    rw [this]

end Interop
