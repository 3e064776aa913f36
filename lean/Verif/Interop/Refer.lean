import Verif.Interop.KeptProps
import Verif.Deadwood.ReferralProps
/-!
# From the authoritative server to the resolver: delegations
-/

namespace Interop
open Spec
open Dw (DwStr)
open Dw.Dissect Dw.Incoming
open Mara.Server (Query Says Session)
open Mara.Big (Loadable)

theorem upward_suffix : ∀ {n s : Name}, s ∈ upward n → s <:+ n
  | [], s, h => by
    rw [upward, List.mem_singleton] at h
    rw [h]
  | l :: ls, s, h => by
    rw [upward] at h
    rcases List.mem_cons.1 h with rfl | h
    · exact List.suffix_rfl
    · exact (upward_suffix h).trans (List.suffix_cons l ls)

/-- The name servers of a delegation are those of a zone the name is in. -/
theorem referral_above {gs : List Given} {q n : Name} {t u : Nat} (h : (Given.places gs).reply q t = .referral (false, n, u)) : n <:+ q := by
  unfold Zone.reply at h
  split at h
  · cases h
  · rename_i z r e1 e2
    obtain ⟨s, hs, e⟩ := List.exists_of_findSome?_eq_some e2
    obtain ⟨v, hv, e⟩ := Option.map_eq_some_iff.1 e
    unfold Given.places at hv
    dsimp only at hv
    split at hv
    · injection hv with hv
      subst hv
      simp only [Prod.mk.injEq] at e
      injection h with h
      rw [← e.2.2] at h
      simp only [Prod.mk.injEq] at h
      rw [← h.2.1]
      exact upward_suffix hs
    · cases hv
  · split at h
    · cases h
    · cases h
    · split at h
      · cases h
      · split at h <;> cases h

/-- After the packet the resolver has the zone `n` with the name servers `ns` and their addresses `ar`, these are whom it asks next, and it
has nothing else from it. -/
def Resolver.Refers (d : Resolver) (c : List UInt8) (q n : Name) (ns ar : List Rec) : Prop :=
  ∃ z ns' ar' t, SameName n z ∧ SameRecs ns ns' ∧ SameRecs ar ar' ∧
    cacheDnsReply d.cfg d.filter d.blocked d.ns d.up (c ++ d.spare) c.length d.junk =
      .ok (.step ⟨[⟨encName z ++ be16 65395, referral (encName z) (referees d.zone q ns' ar'), t⟩],
        some (referral (encName z) (referees d.zone q ns' ar')), none⟩)

/-- A referral that the server sends is what the resolver that asked goes by. -/
theorem carried_referral (d : Resolver) (hup : d.up = false) {m : Msg} (hm : Fine m) (h2 : m.rcode ≠ 2)
    {c : List UInt8} (hc : c.length < 65536) (hcar : m.Carried c) {n : Name} (han : m.an = []) (hns : m.ns ≠ [])
    (hn : ∀ r ∈ m.ns, r.name = n ∧ r.type = 2) (few : m.ns.length ≤ 15) (hprint : ∀ l ∈ n, ∀ y ∈ l, 32 ≤ y.toNat) (hcost : cost n < 260)
    (may : MayDelegate d.zone m.qname n)
    (hno : ∀ x ∈ m.ar, ¬ (Alike m.qname x.name ∧ x.type = m.qtype))
    (haddr : ∀ x ∈ m.ar, (x.type = 1 → x.rdata.length = 4) ∧ (x.type = 28 → x.rdata.length = 16))
    (h31 : m.ns.length + m.ar.length ≤ 31) : d.Refers c m.qname n m.ns m.ar := by
  obtain ⟨p, same, hf, hp, hl⟩ := carried_read hcar hm
  have lns := Dw.DwStr.sameRecs_length same.ns
  have lar := Dw.DwStr.sameRecs_length same.ar
  have han' : p.an = [] := by
    have := Dw.DwStr.sameRecs_length same.an
    rw [han] at this
    exact List.length_eq_zero_iff.1 (by simpa using this.symm)
  obtain ⟨r, rest, hpn⟩ : ∃ r rest, p.ns = r :: rest := by
    cases h : p.ns with
    | nil => rw [h] at lns; exact absurd (List.length_eq_zero_iff.1 lns) hns
    | cons r rest => exact ⟨r, rest, rfl⟩
  have hpns : ∀ x ∈ p.ns, SameName n x.name ∧ x.type = 2 :=
    sameRecs_forall (P := fun x => SameName n x.name ∧ x.type = 2) (fun a b h ha => ⟨ha.1.trans h.name, h.type ▸ ha.2⟩) same.ns
      (fun r hr => ⟨by rw [(hn r hr).1]; rfl, (hn r hr).2⟩)
  have hr := hpns r (by rw [hpn]; simp)
  have hmay : ∀ x ∈ p.ns, x.Delegates d.zone p.qname := by
    intro x hx
    obtain ⟨a, b⟩ := hpns x hx
    refine ⟨b, ?_, by rw [← sameName_cost a]; exact hcost⟩
    rw [← same.qname]
    exact (mayDelegate_congr a rfl).1 may
  have key := packet_referral d.cfg d.filter d.blocked d.asked d.printable hp
    (by unfold Msg.rcode at h2 ⊢; rw [← same.head]; exact h2) d.room hc hf han' hpn hr.2 (by omega)
    (fun x hx => sameName_printable (hpns x hx).1 hprint)
    (by
      rw [← same.qname, ← same.qtype]
      exact sameRecs_forall (P := fun x => ¬ (Alike m.qname x.name ∧ x.type = m.qtype))
        (fun a b hab ha => by rw [← hab.type, ← alike_congr rfl hab.name]; exact ha) same.ar hno)
    (by
      unfold delegations
      rw [hpn, List.take_succ_cons, List.filter_cons_of_pos (by rw [decide_eq_true_iff]; exact hmay r (by rw [hpn]; simp))]
      simp)
    (sameRecs_forall (P := fun x => (x.type = 1 → x.rdata.length = 4) ∧ (x.type = 28 → x.rdata.length = 16))
      (fun a b hab ha => by rw [← hab.type, ← Dw.Incoming.sameRec_rdata hab]; exact ha) same.ar haddr)
    (by omega) (hl r (by unfold Msg.all; simp [hpn])).ttl d.junk
  obtain ⟨z, d', t, -, ⟨x, hx, sx, -⟩, -, sd, e⟩ := key
  refine ⟨z, d'.ns, d'.ar, t, (hpns x hx).1.trans sx, Dw.Reply.sameRecs_trans same.ns sd.ns, Dw.Reply.sameRecs_trans same.ar sd.ar, ?_⟩
  rw [hup, e, same.qname]

/-- The packet of a message has the number of its authority records in the tenth byte. -/
theorem carried_count {m : Msg} {c : List UInt8} (hcar : m.Carried c) (hh : m.head.length = 4) (h : c.getD 9 0 ≠ 0) : m.ns ≠ [] := by
  obtain ⟨p, hs, hi, -⟩ := hcar
  intro e
  have l := Dw.DwStr.sameRecs_length hs.ns
  rw [e] at l
  have l : p.ns.length = 0 := l.symm
  obtain ⟨rest, hrest⟩ := hi.front
  rw [← hrest] at h
  have h4 : p.head.length = 4 := by rw [← hs.head]; exact hh
  apply h
  unfold Msg.header
  rw [l]
  obtain ⟨a, b, x, y, e4⟩ : ∃ a b x y, p.head = [a, b, x, y] := by
    match p.head, h4 with
    | [a, b, x, y], _ => exact ⟨a, b, x, y, rfl⟩
  rw [e4]
  simp [be16]

/-- A reply with these name servers and addresses does not fit into 512 bytes. -/
def TooBig (sh : Shelf) (k : Query) (ns ar : List Nat) : Prop :=
  ¬ ∃ c, Mara.Reply.Small (Mara.Reply.msg sh.item k.id false k.rd k.name k.type [] ns ar) c

/-- **C110.**  A delegation: the resolver that asked the servers of a zone above goes on with the name servers of the delegated zone that
the server has, and with the addresses of these that it has: all that its limits let it show, or as many as fit into 512 bytes.  (The reply
is neither cut short nor a failure and has a name server; `other`: the name asked for is not that of one of the name servers.) -/
theorem referral_kept {gs : List Given} (hl : Loadable gs) (port : ∀ g ∈ gs, g.Portable) (whole : ∀ g ∈ gs, g.type = 28 → g.data.length = 16)
    {sh : Shelf} (has : sh.Has gs) {o o' : Order}
    (ho : Orders sh o) {lim : Limits} (htot : lim.total ≤ 31) {k : Query} (ask : Askable k.name k.type) {c : List UInt8}
    (hs : Says sh gs lim o k c o') (use : Usable c) (told : c.getD 9 0 ≠ 0) {n : Name}
    (href : (Given.places gs).reply (lowName k.name) k.type = .referral (false, n, 2)) (h2 : k.type ≠ 2)
    (few : (o n 2).length ≤ 15 ∨ lim.chain ≤ 15)
    (d : Resolver) (hup : d.up = false) (below : Under n d.zone)
    (other : ∀ i ∈ o n 2, ¬ SameName k.name (sh.host i)) :
    ∃ l js : List Nat, l ≠ [] ∧ l <+: o n 2 ∧ (∀ j ∈ js, ∃ i ∈ l, ∃ g ∈ sh.hosts lim.v6 o i, j ∈ g) ∧
      (∃ a b ns ar, (sh.source gs lim o n 2 k.type).Shown a b [] ns ar ∧
        (l = ns ∧ js = ar ∨ l = ns ∧ js <+: ar ∧ TooBig sh k ns ar ∨ l <+: ns ∧ js = [] ∧ TooBig sh k ns ar)) ∧
      d.Refers c k.name n (l.map sh.item) (js.map sh.item) := by
  cases hs with
  | tooLong _ _ _ _ => exact absurd use (not_failure _ _)
  | star h1 _ => rw [href] at h1; cases h1
  | denial h1 _ _ => rcases h1 with ⟨h1, _⟩ | ⟨h1, _⟩ <;> rw [href] at h1 <;> cases h1
  | refused h1 => rw [href] at h1; cases h1
  | failure h1 => rw [href] at h1; cases h1
  | @records n' u' aa a b an ns ar r h1 shown h3 h4 =>
    have e : n' = n ∧ u' = 2 ∧ aa = false := by
      rcases h1 with ⟨h1, ha⟩ | ⟨h1, ha⟩ <;> rw [href] at h1 <;> cases h1
      exact ⟨rfl, rfl, ha⟩
    obtain ⟨rfl, rfl, rfl⟩ := e
    have hp := Mara.Server.places_reply gs (lowName k.name) k.type
    rw [href] at hp
    obtain ⟨u, hx, hany, hmark⟩ := hp
    simp only [Prod.mk.injEq] at hx
    obtain ⟨-, rfl, -⟩ := hx
    have hn : LabelsOk n' := place_labels hl hany
    have hsuf := referral_above href
    have hans : sh.answers gs o n' 2 k.type = [] := by
      unfold Shelf.answers
      rw [if_neg h2, if_pos rfl]
    have hoth : sh.others gs o n' 2 k.type = o n' 2 := by
      unfold Shelf.others
      rw [if_neg h2, if_pos rfl]
    have han : an = [] := by
      rw [shown.an]
      show ((sh.answers gs o n' 2 k.type).take a).flatMap _ = _
      rw [hans]
      simp
    have hns : ns = (o n' 2).take b := by
      rw [shown.ns]
      show (sh.others gs o n' 2 k.type).take b = _
      rw [hoth]
    have hitem : ∀ i ∈ o n' 2, (sh.item i).name = n' ∧ (sh.item i).type = 2 := by
      intro i hi
      obtain ⟨g, -, -, -, -, x1, x2, -, -⟩ := given_of has hn ((ho _ _).mem_iff.1 hi)
      exact ⟨x1, x2⟩
    have hnext : o.next lim n' 2 k.type = o := by
      unfold Order.next
      rw [if_neg (by simp)]
    have hfrom : ∀ j ∈ ar, ∃ i ∈ ns, ∃ g ∈ sh.hosts lim.v6 o i, j ∈ g := by
      intro j hj
      obtain ⟨i, hi, g, hg, hjg⟩ := shown.from_ j hj
      have hi : i ∈ (sh.answers gs o n' 2 k.type).take a ++ (sh.others gs o n' 2 k.type).take b := hi
      rw [hans, hoth, List.take_nil, List.nil_append, ← hns] at hi
      have hg : g ∈ sh.hosts lim.v6 (if i ∈ sh.answers gs o n' 2 k.type then o else o.next lim n' 2 k.type) i := hg
      rw [hnext, ite_self] at hg
      exact ⟨i, hi, g, hg, hjg⟩
    have hown := shown_owned hl has ho hn shown
    have hchain : b ≤ lim.chain := shown.few.2.2.2
    have htotal : a + b + ar.length ≤ lim.total := shown.total
    -- the records that are shown
    have har : ∀ j ∈ ar, ∃ i ∈ o n' 2, (sh.item j).name = sh.host i ∧ ((sh.item j).type = 1 → (sh.item j).rdata.length = 4) ∧
        ((sh.item j).type = 28 → (sh.item j).rdata.length = 16) := by
      intro j hj
      obtain ⟨i, hi, g, hg, hjg⟩ := hfrom j hj
      have hi' : i ∈ o n' 2 := by rw [hns] at hi; exact List.mem_of_mem_take hi
      have hhost : LabelsOk (sh.host i) := owned_host has ⟨false, n', 2, hn, (ho _ _).mem_iff.1 hi'⟩
      have key : ∀ u, j ∈ sh.addresses o u i → (sh.item j).name = sh.host i ∧ ((sh.item j).type = 1 → (sh.item j).rdata.length = 4) ∧
          ((sh.item j).type = 28 → (sh.item j).rdata.length = 16) := by
        intro u hu
        unfold Shelf.addresses at hu
        rw [if_pos (.inl (hitem i hi').2)] at hu
        have hj' := (ho (sh.host i) u).mem_iff.1 (fromFirst_sub hu)
        obtain ⟨g, hg, -, -, g3, x1, x2, x3, -⟩ := given_of has hhost hj'
        refine ⟨x1, fun h1 => ?_, fun h28 => by rw [x3]; exact whole g hg (by rw [g3, ← x2]; exact h28)⟩
        have so := (has.ok false _ u hhost j hj').1
        have a1 := so.a h1
        have a2 := so.ok.form
        rw [h1] at a2
        have a2 : (_, _, _) = ((0 : Nat), (0 : Nat), (sh.item j).tail.length) := a2
        rw [Prod.mk.injEq, Prod.mk.injEq] at a2
        have e1 : (sh.item j).lead = [] := List.length_eq_zero_iff.1 a2.1
        have e2 : (sh.item j).names = [] := List.length_eq_zero_iff.1 a2.2.1
        unfold Rec.rdata
        rw [e1, e2]
        simpa using a1
      unfold Shelf.hosts at hg
      rw [if_neg (by rw [(hitem i hi').2]; decide)] at hg
      refine ⟨i, hi', ?_⟩
      rcases List.mem_cons.1 hg with rfl | hg
      · exact key 1 hjg
      · split at hg
        · rw [List.mem_singleton] at hg
          subst hg
          exact key 28 hjg
        · cases hg
    -- any part of them, in a message
    have send : ∀ (l js : List Nat) (m : Msg), l <+: ns → js <+: ar → (l = ns ∨ js = []) → (l = ns ∧ js = ar ∨ TooBig sh k ns ar) → m.head = answerHead k.id false k.rd → m.qname = k.name →
        m.qtype = k.type → m.an = [] → m.ns = l.map sh.item → m.ar = js.map sh.item → m.bytes.length < 1024 → m.Carried c → c.length < 1024 →
        ∃ l js : List Nat, l ≠ [] ∧ l <+: o n' 2 ∧ (∀ j ∈ js, ∃ i ∈ l, ∃ g ∈ sh.hosts lim.v6 o i, j ∈ g) ∧
          (∃ a b ns ar, (sh.source gs lim o n' 2 k.type).Shown a b [] ns ar ∧
            (l = ns ∧ js = ar ∨ l = ns ∧ js <+: ar ∧ TooBig sh k ns ar ∨ l <+: ns ∧ js = [] ∧ TooBig sh k ns ar)) ∧
          d.Refers c k.name n' (l.map sh.item) (js.map sh.item) := by
      intro l js m hlp hjp hor hbig m1 m2 m3 m4 m5 m6 m7 m8 m9
      have hl' : l <+: o n' 2 := hlp.trans (by rw [hns]; exact List.take_prefix _ _)
      have hmns : m.ns ≠ [] := carried_count m8 (by rw [m1]; rfl) told
      have hne : l ≠ [] := by
        rintro rfl
        exact hmns m5
      have lb : l.length ≤ b := by
        have := hlp.length_le
        rw [hns, List.length_take] at this
        omega
      have lj := hjp.length_le
      have hfine : Fine m := by
        refine ⟨by rw [m1]; rfl, m2 ▸ ask.name, m2 ▸ ask.printable, m3 ▸ ask.type, ?_, ?_, m7⟩
        · intro r hr
          unfold Msg.all at hr
          rw [m4, m5, m6, List.nil_append] at hr
          rcases List.mem_append.1 hr with hr | hr
          · obtain ⟨i, hi, rfl⟩ := List.mem_map.1 hr
            exact (hown.2.1 i (hlp.subset hi)).light has port
          · obtain ⟨i, hi, rfl⟩ := List.mem_map.1 hr
            exact (hown.2.2 i (hjp.subset hi)).light has port
        · unfold Msg.all
          intro e
          exact hmns (List.append_eq_nil_iff.1 (List.append_eq_nil_iff.1 e).1).2
      have hbelow : Below k.name n' := by
        unfold Below
        have e : lowName k.name = (lowName k.name).map (·.map lower) := by
          unfold lowName
          simp [List.map_map, Function.comp_def, Dw.DwStr.lower_idem]
        obtain ⟨pre, hpre⟩ := hsuf
        refine ⟨pre.map (·.map lower), ?_⟩
        rw [← List.map_append, hpre, ← e]
        rfl
      refine ⟨l, js, hne, hl', ?_, ⟨a, b, ns, ar, han ▸ shown, ?_⟩, ?_⟩
      · intro j hj
        rcases hor with rfl | rfl
        · exact hfrom j (hjp.subset hj)
        · cases hj
      · rcases hbig with h | h
        · exact .inl h
        · rcases hor with e | e
          · exact .inr (.inl ⟨e, hjp, h⟩)
          · exact .inr (.inr ⟨hlp, e, h⟩)
      · have key := carried_referral d hup hfine (by rw [rcode_answer m1]; decide) (by omega) m8 (n := n') m4 hmns
          (by
            intro r hr
            rw [m5] at hr
            obtain ⟨i, hi, rfl⟩ := List.mem_map.1 hr
            exact hitem i (hl'.subset hi))
          (by
            rw [m5, List.length_map]
            have := hl'.length_le
            omega)
          (by
            intro y hy x hx
            obtain ⟨pre, hpre⟩ := hsuf
            have : y ∈ lowName k.name := by rw [← hpre]; simp [hy]
            unfold lowName at this
            obtain ⟨y', hy', rfl⟩ := List.mem_map.1 this
            obtain ⟨x', hx', rfl⟩ := List.mem_map.1 hx
            rw [lower_printable]
            exact ask.printable y' hy' x' hx')
          (by
            have h1 : cost k.name < 260 := ask.cost
            have := below_cost hbelow
            omega)
          (by rw [m2]; exact ⟨below, hbelow⟩)
          (by
            rintro r hr ⟨h, -⟩
            rw [m6] at hr
            obtain ⟨j, hj, rfl⟩ := List.mem_map.1 hr
            obtain ⟨i, hi, h5, -⟩ := har j (hjp.subset hj)
            rw [m2, h5] at h
            exact other i hi h.1)
          (by
            intro r hr
            rw [m6] at hr
            obtain ⟨j, hj, rfl⟩ := List.mem_map.1 hr
            obtain ⟨i, hi, -, h5, h6⟩ := har j (hjp.subset hj)
            exact ⟨h5, h6⟩)
          (by rw [m5, m6, List.length_map, List.length_map]; omega)
        rw [m2, m5, m6] at key
        exact key
    cases h4 with
    | whole s1 s2 =>
      exact send ns ar _ List.prefix_rfl List.prefix_rfl (.inl rfl) (.inl ⟨rfl, rfl⟩) rfl rfl rfl (by rw [han]; rfl) rfl rfl h3 s1 (by omega)
    | less j hj1 hj2 s1 s2 s3 =>
      refine send (ns.take ((Mara.Reply.msg sh.item k.id false k.rd k.name k.type an ns ar).optional - j)) (ar.take (ar.length - j))
        (Msg.without (Mara.Reply.msg sh.item k.id false k.rd k.name k.type an ns ar) j) (List.take_prefix _ _) (List.take_prefix _ _)
        ?_ (.inr ?_) rfl rfl rfl (by rw [han]; rfl) ?_ ?_ ?_ s1 (by omega)
      · by_cases h : ar.length ≤ j
        · right
          rw [show ar.length - j = 0 by omega, List.take_zero]
        · left
          apply List.take_of_length_le
          unfold Msg.optional Mara.Reply.msg
          simp
          omega
      · have := s3 0 hj1
        rw [Mara.Reply.without_zero, han] at this
        exact this
      · unfold Msg.without
        rw [List.map_take]
        rfl
      · unfold Msg.without
        rw [List.map_take]
        simp [Mara.Reply.msg]
      · have := Mara.Reply.bytes_without_le (Mara.Reply.msg sh.item k.id false k.rd k.name k.type an ns ar) j
        omega
    | cut _ => exact absurd use (not_cut rfl)

/-- **C110.**  The same from the first packet on: the server has loaded its zones, and any packets have come before. -/
theorem resolver_referred {gs : List Given} (hl : Loadable gs) (ht : Given.Tidy gs) (port : ∀ g ∈ gs, g.Portable)
    (whole : ∀ g ∈ gs, g.type = 28 → g.data.length = 16) (v6 : Bool) :
    ∃ s, Mara.Big.load gs Mara.Big.empty = .ok s ∧ ∃ sh : Shelf, sh.Has gs ∧
      ∀ ks, (∀ q, q ∈ ks ↔ (s.dict q).isSome = true) →
      ∃ l, Mara.Big.addAn v6 ks ⟨s, fun _ => {}⟩ = .ok l ∧
      ∀ (junk : Nat → Mara.Reply.Node) (cfg : Mara.Server.Cfg), Mara.Lookup.Usual cfg.look → cfg.reply.maxTotal ≤ 20 → cfg.reply.v6 = v6 →
      ∀ (ps : List Mara.Server.Packet) (qs : List (Option Query)), List.Forall₂ (Mara.Server.Arrives cfg.look) ps qs →
      ∃ rs s', Mara.Server.serve cfg ps (Mara.Server.start l junk) = .ok (rs, s') ∧
        ∀ (j : Nat) k c, qs[j]? = some (some k) → rs[j]? = some (some c) → k.type ≠ 255 → k.type ≠ 2 → Askable k.name k.type → Usable c →
        c.getD 9 0 ≠ 0 → ∀ n, (Given.places gs).reply (lowName k.name) k.type = .referral (false, n, 2) →
        (sh.own false n 2).length ≤ 15 ∨ cfg.reply.maxChain ≤ 15 → (∀ i ∈ sh.own false n 2, ¬ SameName k.name (sh.host i)) →
        ∀ d : Resolver, d.up = false → Under n d.zone →
        ∃ is js : List Nat, is ≠ [] ∧ is.Subperm (sh.own false n 2) ∧
          (∀ i ∈ js, ∃ h ∈ is, i ∈ sh.own false (sh.host h) 1 ∨ cfg.reply.v6 = true ∧ i ∈ sh.own false (sh.host h) 28) ∧
          d.Refers c k.name n (is.map sh.item) (js.map sh.item) := by
  obtain ⟨s, h1, sh, h2, h3⟩ := Mara.Server.server_session hl ht v6
  refine ⟨s, h1, sh, h2, fun ks hks => ?_⟩
  obtain ⟨l, h4, h5⟩ := h3 ks hks
  refine ⟨l, h4, fun junk cfg hu ht2 hv ps qs hps => ?_⟩
  obtain ⟨rs, s', o', h6, h7⟩ := h5 junk cfg hu ht2 hv ps qs hps
  refine ⟨rs, s', h6, fun j k c hq hr h255 hns ask use told n href few other d hup below => ?_⟩
  obtain ⟨o1, o2, q1, q2⟩ := session_says h7 (fun _ _ => .refl _) hq hr h255
  obtain ⟨is, js, r1, r2, r3, -, r4⟩ := referral_kept hl port whole h2 q1 (lim := Mara.Server.limits cfg.reply) (by show cfg.reply.maxTotal ≤ 31; omega)
    ask q2 use told href hns (by rw [(q1 n 2).length_eq]; exact few) d hup below (fun i hi => other i ((q1 _ _).mem_iff.1 hi))
  have hn : LabelsOk n := by
    have hp := Mara.Server.places_reply gs (lowName k.name) k.type
    rw [href] at hp
    obtain ⟨u, hx, hany, -⟩ := hp
    simp only [Prod.mk.injEq] at hx
    obtain ⟨-, rfl, -⟩ := hx
    exact place_labels hl hany
  refine ⟨is, js, r1, r2.sublist.subperm.trans (q1 n 2).subperm, ?_, r4⟩
  intro i hi
  obtain ⟨h, hh, g, hg, hig⟩ := r3 i hi
  refine ⟨h, hh, ?_⟩
  have htype : (sh.item h).type = 2 := by
    obtain ⟨g, -, -, -, -, -, x2, -, -⟩ := given_of h2 hn ((q1 _ _).mem_iff.1 (r2.subset hh))
    exact x2
  have key : ∀ u, i ∈ sh.addresses o1 u h → i ∈ sh.own false (sh.host h) u := by
    intro u hu
    unfold Shelf.addresses at hu
    rw [if_pos (.inl htype)] at hu
    exact (q1 (sh.host h) u).mem_iff.1 (fromFirst_sub hu)
  unfold Shelf.hosts at hg
  rw [if_neg (by rw [htype]; decide)] at hg
  rcases List.mem_cons.1 hg with rfl | hg
  · exact .inl (key 1 hig)
  · split at hg
    · rename_i hv6
      rw [List.mem_singleton] at hg
      subst hg
      exact .inr ⟨hv6, key 28 hig⟩
    · cases hg

end Interop
