import Verif.Deadwood.TrustExamples
/-!
# Properties: a packet that refers to other servers
-/

namespace Spec

/-- The servers a referral is about, as they are written in a list of servers: those with an address, and then those without. -/
def referees (zone q : List (List UInt8)) (ns ar : List Rec) : List (List UInt8) :=
  (addresses zone q ns ar).map glueEntry ++ (nameless zone q ns ar).map nameEntry

end Spec

namespace Dw
namespace Incoming
open DwStr Dissect Spec Trust

theorem delegates_congr {zone q q' : List (List UInt8)} {r r' : Rec} (hq : SameName q q') (hr : SameRec r r') :
    r.Delegates zone q ↔ r'.Delegates zone q' := by
  unfold Rec.Delegates
  rw [hr.type, mayDelegate_congr hr.name hq, sameName_cost hr.name]

theorem delegations_lowered (zone q : List (List UInt8)) (ns : List Rec) : delegations zone (lowered q) ns = delegations zone q ns := by
  unfold delegations
  congr 1
  funext r
  have : r.Delegates zone (lowered q) ↔ r.Delegates zone q := by
    unfold Rec.Delegates
    rw [← mayDelegate_congr (z := zone) (a := r.name) rfl (lowered_same q)]
  simp only [this]

theorem referees_lowered (zone q : List (List UInt8)) (ns ar : List Rec) : referees zone (lowered q) ns ar = referees zone q ns ar := by
  unfold referees addresses nameless
  simp only [delegations_lowered]

theorem sameRecs_take : ∀ {a b : List Rec} (n : Nat), SameRecs a b → SameRecs (a.take n) (b.take n)
  | [], [], n, _ => by simp [SameRecs]
  | [], _ :: _, _, h => h.elim
  | _ :: _, [], _, h => h.elim
  | _ :: _, _ :: _, 0, _ => trivial
  | _ :: _, _ :: _, n + 1, h => ⟨h.1, sameRecs_take n h.2⟩

theorem sameRecs_delegations {zone q : List (List UInt8)} {a b : List Rec} (h : SameRecs a b) :
    SameRecs (delegations zone q a) (delegations zone q b) :=
  sameRecs_filter (fun r r' hr => by simp only [delegates_congr (q := q) rfl hr]) (sameRecs_take 15 h)

theorem sameNames_enc : ∀ {a b : List (List (List UInt8))}, SameNames a b → (a.flatMap encName).length = (b.flatMap encName).length
  | [], [], _ => rfl
  | [], _ :: _, h => h.elim
  | _ :: _, [], h => h.elim
  | a :: as, b :: bs, h => by
    simp only [List.flatMap_cons, List.length_append]
    rw [sameName_enc h.1, sameNames_enc h.2]

theorem sameRec_rdata {r r' : Rec} (h : SameRec r r') : r.rdata.length = r'.rdata.length := by
  unfold Rec.rdata
  simp only [List.length_append, h.lead, h.tail, sameNames_enc h.names]

theorem lower_printable (x : UInt8) : 32 ≤ (lower x).toNat ↔ 32 ≤ x.toNat := by
  unfold lower
  split
  · simp only [UInt8.toNat_ofNat']; omega
  · rfl

theorem sameName_printable {a b : List (List UInt8)} (h : SameName a b) (ha : ∀ l ∈ a, ∀ x ∈ l, 32 ≤ x.toNat) :
    ∀ l ∈ b, ∀ x ∈ l, 32 ≤ x.toNat := by
  intro l hl x hx
  have : l.map lower ∈ a.map (·.map lower) := by
    unfold SameName at h
    rw [h]
    exact List.mem_map.2 ⟨l, hl, rfl⟩
  obtain ⟨l', hl', e⟩ := List.mem_map.1 this
  have hx' : lower x ∈ l'.map lower := by rw [e]; exact List.mem_map.2 ⟨x, hx, rfl⟩
  obtain ⟨x', hx', e'⟩ := List.mem_map.1 hx'
  have := ha l' hl' x' hx'
  rw [← lower_printable, ← e', lower_printable]
  exact this

/-- C105.  A packet without answers whose first authority record is an NS record: what the servers asked may say about who serves the name,
and nothing else, is kept, for the zone with the longest name; and these are asked next. -/
theorem packet_referral (cfg : Times) (filter : Bool) (blocked : List UInt8 → Bool) {ns : DwStr} {bs : List (List UInt8)}
    (hs : Servers ns bs) (hctl : ∀ l ∈ bs, ∀ x ∈ l, 32 ≤ x.toNat) {p : Msg} (hp : p.Plain) (h2 : p.rcode ≠ 2)
    {c spare : List UInt8} (h3 : 3 ≤ spare.length) (hc : c.length < 65536) (hf : p.From c)
    (han : p.an = []) {r : Rec} {rest : List Rec} (hns : p.ns = r :: rest) (ht2 : r.type = 2) (few : p.ns.length ≤ 15)
    (hprint : ∀ x ∈ p.ns, ∀ l ∈ x.name, ∀ y ∈ l, 32 ≤ y.toNat)
    (hno : ∀ x ∈ p.ar, ¬ (Alike p.qname x.name ∧ x.type = p.qtype)) (hsome : delegations bs p.qname p.ns ≠ [])
    (haddr : ∀ x ∈ p.ar, (x.type = 1 → x.rdata.length = 4) ∧ (x.type = 28 → x.rdata.length = 16))
    (h31 : p.ns.length + p.ar.length ≤ 31) (hts : r.ttl < 2147483648) (junk : List UInt8) :
    ∃ z d t, MayDelegate bs p.qname z ∧ (∃ x ∈ p.ns, SameName x.name z ∧ (x.type = 2 ∨ x.type = 6)) ∧
      (∀ x ∈ delegations bs p.qname p.ns, (encName x.name).length ≤ (encName z).length) ∧ SameAnswers p.answers d ∧
      cacheDnsReply cfg filter blocked ns false (c ++ spare) c.length junk =
        .ok (.step ⟨[⟨encName z ++ be16 65395, referral (encName z) (referees bs p.qname d.ns d.ar), t⟩],
          some (referral (encName z) (referees bs p.qname d.ns d.ar)), none⟩) := by
  obtain ⟨o, inp, p', Q, plen, qlen, same, hrep, uo, hr, hd, h7', hask, e⟩ := incoming_eq cfg filter blocked ns false hp h2 h3 hc hf junk
  have hnb : ¬ p.an.any (fun r => r.toRR.bad filter blocked) = true := by rw [han]; simp
  rw [if_neg hnb] at e
  have han' : p'.an = [] := by
    have := same.an
    rw [show p.answers.an = [] from han] at this
    cases h : p'.an with
    | nil => rfl
    | cons => rw [h] at this; exact this.elim
  obtain ⟨r', rest', hns', sr, srest⟩ : ∃ r' rest', p'.ns = r' :: rest' ∧ SameRec r r' ∧ SameRecs rest rest' := by
    have := same.ns
    rw [show p.answers.ns = r :: rest from hns] at this
    cases h : p'.ns with
    | nil => rw [h] at this; exact this.elim
    | cons a b => rw [h] at this; exact ⟨a, b, rfl, this.1, this.2⟩
  have hall : p'.all = [] ++ r' :: (rest' ++ p'.ar) := by simp [Answers.all, han', hns']
  obtain ⟨t, k1, -⟩ := replyTtl_exact (inp := inp) cfg uo hd h7' (by rw [han]; simp) hr hall (by simp)
    (by rw [← sr.type, ht2]; decide) (fun x hx => (hrep.recs x hx).ok)
    (by intro x hx; rw [List.nil_append, List.mem_singleton] at hx; subst hx; rw [← sr.ttl]; exact hts) (by rw [han]; simp)
  have hsns : SameRecs p.ns p'.ns := same.ns
  have hsar : SameRecs p.ar p'.ar := same.ar
  have lns := sameRecs_length hsns
  have lar := sameRecs_length hsar
  have hsd := sameRecs_delegations (zone := bs) (q := p.qname) hsns
  obtain ⟨z, t', m1, ⟨x, hx, hn, hxt⟩, m3, m4⟩ := referral_exact cfg hs hctl hask hrep (by
      rw [← same.kind]
      simp only [Msg.answers]
      split <;> simp) han' hns' (sr.type ▸ ht2) (by omega)
    (sameRecs_forall (P := fun x => ¬ (Alike (lowered p.qname) x.name ∧ x.type = p.qtype))
      (fun a b hab ha => by rw [← hab.type, ← alike_congr rfl hab.name]; exact ha) hsar
      (fun x hx h => hno x hx ⟨(alike_congr (lowered_same _) rfl).2 h.1, h.2⟩))
    (by
      rw [delegations_lowered]
      intro h
      rw [h] at hsd
      cases h' : delegations bs p.qname p.ns with
      | nil => exact hsome h'
      | cons => rw [h'] at hsd; exact hsd.elim)
    (fun x hx => sameRecs_forall (P := fun x => (x.type = 1 → x.rdata.length = 4) ∧ (x.type = 28 → x.rdata.length = 16))
      (fun a b hab ha => by rw [← hab.type, ← sameRec_rdata hab]; exact ha) hsar haddr x (List.mem_of_mem_filter hx))
    (es := referees bs (lowered p.qname) p'.ns p'.ar) rfl
    (by
      unfold referees
      rw [List.length_append, List.length_map, List.length_map]
      have a1 := List.length_filter_le (fun r => r.isAddr && decide (∃ d ∈ delegations bs (lowered p.qname) p'.ns, Alike d.target r.name)) p'.ar
      have a2 := List.length_filter_le (fun d => decide ¬ ∃ r ∈ p'.ar, r.isAddr = true ∧ Alike d.target r.name)
        (delegations bs (lowered p.qname) p'.ns)
      have a3 : (delegations bs (lowered p.qname) p'.ns).length ≤ (p'.ns.take 15).length := List.length_filter_le _ _
      rw [List.length_take] at a3
      unfold addresses nameless
      omega) t junk
  rw [referees_lowered] at m4
  obtain ⟨y, hy, sy⟩ := sameRecs_mem hsns x hx
  refine ⟨z, p', t', (mayDelegate_congr rfl (lowered_same _)).2 m1, ⟨y, hy, hn ▸ sy.name, sy.type ▸ hxt⟩, ?_, same, ?_⟩
  · rw [delegations_lowered] at m3
    have : ∀ {a b : List Rec} {n : Nat}, SameRecs a b → (∀ x ∈ b, (encName x.name).length ≤ n) → ∀ x ∈ a, (encName x.name).length ≤ n := by
      intro a
      induction a with
      | nil => intro b n _ _ x hx; cases hx
      | cons u us ih =>
        intro b n h g x hx
        cases b with
        | nil => exact h.elim
        | cons v vs =>
          rcases List.mem_cons.1 hx with rfl | hx
          · rw [sameName_enc h.1.name]; exact g v (by simp)
          · exact ih h.2 (fun w hw => g w (by simp [hw])) x hx
    exact this hsd m3
  · rw [e, k1, Res.ok_bind]
    rcases m4 with m4 | ⟨⟨l, hl, w, hw, hlt⟩, -⟩
    · rw [m4, Res.ok_bind]
    · have := sameName_printable (hn ▸ sy.name) (hprint y hy) l hl w hw
      omega

/-- A root server refers to the server of v.c. -/
example : ∃ z d t, MayDelegate [] tQ z ∧ (∃ x ∈ tRefer.ns, SameName x.name z ∧ (x.type = 2 ∨ x.type = 6)) ∧
    (∀ x ∈ delegations [] tQ tRefer.ns, (encName x.name).length ≤ (encName z).length) ∧ SameAnswers tRefer.answers d ∧
    cacheDnsReply exTimes true (fun _ => false) (Remote.dstr tRoot) false (tReferPacket ++ exSpare) tReferPacket.length [] =
      .ok (.step ⟨[⟨encName z ++ be16 65395, referral (encName z) (referees [] tQ d.ns d.ar), t⟩],
        some (referral (encName z) (referees [] tQ d.ns d.ar)), none⟩) :=
  packet_referral exTimes true _ ⟨Remote.dstr_usable (by decide), ⟨by simp [LabelsOk], by decide⟩, ⟨_, Remote.dstr_contents _⟩⟩ (by simp)
    tRefer_plain (by decide) (by decide) (by decide) tRefer_from rfl rfl rfl (by decide) (by decide) (by decide) (by decide) (by decide)
    (by decide) (by decide) []

end Incoming
end Dw
