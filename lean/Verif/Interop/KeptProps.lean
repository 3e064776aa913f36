import Verif.Interop.Kept
import Verif.Mara.ReplyLong
/-!
# From the authoritative server to the resolver: what is kept of the replies
-/

namespace Interop
open Spec
open Dw (DwStr)
open Dw.Dissect Dw.Incoming
open Mara.Server (Query Says Session)
open Mara.Big (Loadable)

/-- The reply is not marked as cut short, and has the response code 0 or 3. -/
def Usable (c : List UInt8) : Prop := c.getD 2 0 &&& 2 = 0 ∧ (c.getD 3 0 = 0 ∨ c.getD 3 0 = 3)

theorem not_cut {m : Msg} {id : Nat} {aa rd : Bool} (h : m.head = answerHead id aa rd) : ¬ Usable (truncated m.head) := by
  rintro ⟨h1, -⟩
  rw [h] at h1
  unfold answerHead truncated be16 at h1
  revert h1
  cases aa <;> cases rd <;> simp <;> decide

theorem not_failure (id : Nat) (rd : Bool) : ¬ Usable (serverFailure id rd) := by
  rintro ⟨-, h⟩
  unfold serverFailure be16 at h
  simp at h

/-- The message a reply with records carries. -/
theorem says_message {sh : Shelf} {gs : List Given} {lim : Limits} {o o' : Order} {k : Query} {c : List UInt8}
    (hs : Says sh gs lim o k c o') {n : Name} {u : Nat} {aa : Bool}
    (href : (Given.places gs).reply (lowName k.name) k.type = .records (false, n, u) ∧ aa = true ∨
      (Given.places gs).reply (lowName k.name) k.type = .referral (false, n, u) ∧ aa = false) (use : Usable c) :
    ∃ a b an ns ar, (sh.source gs lim o n u k.type).Shown a b an ns ar ∧ ∃ m : Msg, m.head = answerHead k.id aa k.rd ∧
      m.qname = k.name ∧ m.qtype = k.type ∧ m.an = an.map sh.item ∧ (∀ r ∈ m.ns, ∃ i ∈ ns, r = sh.item i) ∧
      (∀ r ∈ m.ar, ∃ i ∈ ar, r = sh.item i) ∧ m.bytes.length < 1024 ∧ m.Carried c ∧ c.length < 1024 := by
  cases hs with
  | @records n' u' aa' a b an ns ar r h1 h2 h3 h4 =>
    have e : n' = n ∧ u' = u ∧ aa' = aa := by
      rcases href with ⟨e, ea⟩ | ⟨e, ea⟩ <;> rcases h1 with ⟨h1, ha⟩ | ⟨h1, ha⟩ <;> rw [e] at h1 <;> cases h1 <;> exact ⟨rfl, rfl, ha.trans ea.symm⟩
    obtain ⟨rfl, rfl, rfl⟩ := e
    refine ⟨a, b, an, ns, ar, h2, ?_⟩
    have hmem : ∀ (l : List Nat) (j : Nat), ∀ r ∈ (l.map sh.item).take j, ∃ i ∈ l, r = sh.item i := by
      intro l j r hr
      obtain ⟨i, hi, rfl⟩ := List.mem_map.1 (List.mem_of_mem_take hr)
      exact ⟨i, hi, rfl⟩
    have hmem' : ∀ (l : List Nat), ∀ r ∈ l.map sh.item, ∃ i ∈ l, r = sh.item i := by
      intro l r hr
      obtain ⟨i, hi, rfl⟩ := List.mem_map.1 hr
      exact ⟨i, hi, rfl⟩
    cases h4 with
    | whole s1 s2 =>
      exact ⟨_, rfl, rfl, rfl, rfl, hmem' ns, hmem' ar, h3, s1, by omega⟩
    | less j _ _ s1 s2 _ =>
      refine ⟨Msg.without (Mara.Reply.msg sh.item k.id aa' k.rd k.name k.type an ns ar) j, rfl, rfl, rfl, rfl, hmem ns _, hmem ar _, ?_, s1, by omega⟩
      have := Mara.Reply.bytes_without_le (Mara.Reply.msg sh.item k.id aa' k.rd k.name k.type an ns ar) j
      omega
    | cut _ => exact absurd use (not_cut rfl)
  | tooLong _ _ _ _ => exact absurd use (not_failure _ _)
  | star h1 _ => rcases href with ⟨e, _⟩ | ⟨e, _⟩ <;> rw [e] at h1 <;> cases h1
  | denial h1 _ _ => rcases href with ⟨e, _⟩ | ⟨e, _⟩ <;> rcases h1 with ⟨h1, _⟩ | ⟨h1, _⟩ <;> rw [e] at h1 <;> cases h1
  | refused h1 => rcases href with ⟨e, _⟩ | ⟨e, _⟩ <;> rw [e] at h1 <;> cases h1
  | failure h1 => rcases href with ⟨e, _⟩ | ⟨e, _⟩ <;> rw [e] at h1 <;> cases h1

theorem rcode_answer {m : Msg} {id : Nat} {aa rd : Bool} (h : m.head = answerHead id aa rd) : m.rcode = 0 := by
  unfold Msg.rcode
  rw [h]
  unfold answerHead be16
  rfl


/-- The resolver when the reply comes: its settings, whom it asked (the servers of `zone`), and what lies behind the
packet. -/
structure Resolver where
  cfg : Times
  filter : Bool
  blocked : List UInt8 → Bool
  ns : DwStr
  zone : List (List UInt8)
  up : Bool
  spare : List UInt8
  junk : List UInt8
  asked : Servers ns zone
  printable : ∀ l ∈ zone, ∀ x ∈ l, 32 ≤ x.toNat
  room : 3 ≤ spare.length

/-- After the packet the resolver has, for this name and type, answers and authority records the same as these, to be kept for `life`
seconds; and it has nothing else from it. -/
def Resolver.Keeps (d : Resolver) (c : List UInt8) (n : Name) (t : Nat) (an ns : List Rec) (code : UInt8) (life : Int) : Prop :=
  ∃ an' ns', SameRecs an an' ∧ SameRecs ns ns' ∧
    cacheDnsReply d.cfg d.filter d.blocked d.ns d.up (c ++ d.spare) c.length d.junk =
      .ok (.step ⟨[⟨encName (lowered n) ++ be16 t, (⟨an', ns', [], code⟩ : Answers).packed.enc, life⟩], none, none⟩)

/-- Something is shown if there is something and the limits allow it. -/
theorem shown_some {s : Source} {a b : Nat} {an ns ar : List Nat} (h : s.Shown a b an ns ar) (hne : s.answers ≠ []) (h1 : 1 ≤ s.chain)
    (h2 : 1 ≤ s.total) : 0 < a := by
  by_contra h0
  have h0 : a = 0 := by omega
  rcases h.answers with q | q | ⟨q1, q2⟩
  · rw [h0] at q
    exact hne (List.length_eq_zero_iff.1 q.symm)
  · omega
  · have q3 := h.from_
    rw [h0, q1] at q3
    have : ar = [] := by
      cases ar with
      | nil => rfl
      | cons x l =>
        obtain ⟨i, hi, -⟩ := q3 x (by simp)
        simp at hi
    rw [this] at q2
    simp at q2
    omega

theorem shown_fine {gs : List Given} (hl : Loadable gs) {sh : Shelf} (has : sh.Has gs) (port : ∀ g ∈ gs, g.Portable) {o : Order}
    (ho : Orders sh o) {k : Query} (ask : Askable k.name k.type) {an ns ar : List Nat}
    (hown : (∀ i ∈ an, Owned sh i) ∧ (∀ i ∈ ns, Owned sh i) ∧ (∀ i ∈ ar, Owned sh i)) {m : Msg} {aa : Bool} (h1 : m.head = answerHead k.id aa k.rd)
    (h2 : m.qname = k.name) (h3 : m.qtype = k.type) (h4 : m.an = an.map sh.item) (h5 : ∀ r ∈ m.ns, ∃ i ∈ ns, r = sh.item i)
    (h6 : ∀ r ∈ m.ar, ∃ i ∈ ar, r = sh.item i) (h7 : m.bytes.length < 1024) (hne : m.an ≠ []) : Fine m := by
  refine ⟨?_, h2 ▸ ask.name, h2 ▸ ask.printable, h3 ▸ ask.type, ?_, ?_, h7⟩
  · rw [h1]; rfl
  · intro r hr
    unfold Msg.all at hr
    rcases List.mem_append.1 hr with hr | hr
    · rcases List.mem_append.1 hr with hr | hr
      · rw [h4] at hr
        obtain ⟨i, hi, rfl⟩ := List.mem_map.1 hr
        exact (hown.1 i hi).light has port
      · obtain ⟨i, hi, rfl⟩ := h5 r hr
        exact (hown.2.1 i hi).light has port
    · obtain ⟨i, hi, rfl⟩ := h6 r hr
      exact (hown.2.2 i hi).light has port
  · unfold Msg.all
    intro e
    exact hne (List.append_eq_nil_iff.1 (List.append_eq_nil_iff.1 e).1).1

/-- **C106.** -/
theorem answer_kept {gs : List Given} (hl : Loadable gs) (port : ∀ g ∈ gs, g.Portable) {sh : Shelf} (has : sh.Has gs) {o o' : Order}
    (ho : Orders sh o) {lim : Limits} (hlim : 1 ≤ lim.chain ∧ 1 ≤ lim.total) {k : Query} (ask : Askable k.name k.type) {c : List UInt8}
    (hs : Says sh gs lim o k c o') (use : Usable c) {n : Name}
    (href : (Given.places gs).reply (lowName k.name) k.type = .records (false, n, k.type))
    (ht : k.type ≠ 2 ∧ k.type ≠ 5 ∧ k.type ≠ 255) (few : (o n k.type).length ≤ 7 ∨ lim.chain ≤ 7)
    (d : Resolver) (good : ∀ i ∈ o n k.type, (sh.item i).toRR.bad d.filter d.blocked = false) :
    n = lowName k.name ∧ ∃ a, 0 < a ∧ (a = (o n k.type).length ∨ a = lim.chain ∨ a = lim.total ∨ k.type = 15 ∧ lim.total ≤ a * (1 + 2 * lim.addrs)) ∧
      d.Keeps c k.name k.type (((o n k.type).take a).map sh.item) [] 0
        (within d.cfg.min d.cfg.max (lifetime [] (((o n k.type).take a).map sh.item))) := by
  obtain ⟨a, b, an, ns, ar, shown, m, h1, h2, h3, h4, h5, h6, h7, h8, h9⟩ := says_message hs (.inl ⟨href, rfl⟩) use
  have hp := Mara.Server.places_reply gs (lowName k.name) k.type
  rw [href] at hp
  obtain ⟨u, -, hx, hany⟩ := hp
  simp only [Prod.mk.injEq] at hx
  obtain ⟨-, rfl, rfl⟩ := hx
  refine ⟨rfl, ?_⟩
  have hn : LabelsOk (lowName k.name) := Mara.Lookup.lowName_ok ask.name.1
  have hans : sh.answers gs o (lowName k.name) k.type k.type = o (lowName k.name) k.type := by
    unfold Shelf.answers
    rw [if_neg ht.1, if_neg ht.1]
  have hne : o (lowName k.name) k.type ≠ [] := by
    intro e
    have := ho (lowName k.name) k.type
    rw [e] at this
    exact own_some has hn hany (List.Perm.nil_eq this).symm
  have hitem : ∀ i ∈ o (lowName k.name) k.type, (sh.item i).name = lowName k.name ∧ (sh.item i).type = k.type := by
    intro i hi
    obtain ⟨g, -, -, -, -, x1, x2, -, -⟩ := given_of has hn ((ho _ _).mem_iff.1 hi)
    exact ⟨x1, x2⟩
  have han : an = (o (lowName k.name) k.type).take a := by
    have := shown.an
    rw [this]
    show ((sh.answers gs o _ _ _).take a).flatMap (fun i => i :: sh.leads o k.type i) = _
    rw [hans]
    have : ∀ l : List Nat, (∀ i ∈ l, (sh.item i).type ≠ 5) → l.flatMap (fun i => i :: sh.leads o k.type i) = l := by
      intro l
      induction l with
      | nil => intro _; rfl
      | cons x l ih =>
        intro h
        rw [List.flatMap_cons, ih fun i hi => h i (by simp [hi])]
        unfold Shelf.leads
        rw [if_neg (h x (by simp))]
        rfl
    exact this _ fun i hi => by rw [(hitem i (List.mem_of_mem_take hi)).2]; exact ht.2.1
  have ha : 0 < a := shown_some shown (by show sh.answers gs o _ _ _ ≠ []; rw [hans]; exact hne) hlim.1 hlim.2
  have hall : a = (o (lowName k.name) k.type).length ∨ a = lim.chain ∨ a = lim.total ∨ k.type = 15 ∧ lim.total ≤ a * (1 + 2 * lim.addrs) := by
    rcases shown.answers with q | q | ⟨q1, q2⟩
    · exact .inl (by rw [q]; show (sh.answers gs o _ _ _).length = _; rw [hans])
    · exact .inr (.inl q)
    · have q2 : a + ar.length = lim.total := q2
      by_cases h15 : k.type = 15
      · refine .inr (.inr (.inr ⟨h15, ?_⟩))
        have := shown.many 2 (by
          intro i
          show (sh.hosts _ _ i).length ≤ 2
          unfold Shelf.hosts
          split
          · simp
          · rw [List.length_cons]
            split <;> simp)
        rw [q1] at this
        have this : ar.length ≤ 2 * lim.addrs * (a + 0) := this
        rw [Nat.add_zero] at this
        rw [← q2, Nat.mul_add, Nat.mul_comm a (2 * lim.addrs), Nat.mul_one]
        omega
      · refine .inr (.inr (.inl ?_))
        have : ar = [] := by
          cases har : ar with
          | nil => rfl
          | cons x l =>
            obtain ⟨i, hi, g, hg, hj⟩ := shown.from_ x (by rw [har]; simp)
            rw [q1] at hi
            have hi : i ∈ (sh.answers gs o (lowName k.name) k.type k.type).take a := by
              rcases List.mem_append.1 hi with hi | hi
              · exact hi
              · simp at hi
            rw [hans] at hi
            have ht' := (hitem i (List.mem_of_mem_take hi)).2
            have hg : g ∈ sh.hosts lim.v6 _ i := hg
            unfold Shelf.hosts Shelf.addresses at hg
            rw [ht', if_neg ht.2.1] at hg
            have h0 : ¬ (k.type = 2 ∨ k.type = 15) := by have := ht.1; omega
            simp only [if_neg h0] at hg
            have : g = [] := by
              rcases List.mem_cons.1 hg with h | h
              · exact h
              · split at h
                · simpa using h
                · cases h
            rw [this] at hj
            cases hj
        rw [this] at q2
        simpa using q2
  refine ⟨a, ha, hall, ?_⟩
  have hman : m.an ≠ [] := by
    rw [h4, han]
    intro e
    rw [List.map_eq_nil_iff, List.take_eq_nil_iff] at e
    rcases e with h | h
    · omega
    · exact hne h
  have fine := shown_fine hl has port ho ask (shown_owned hl has ho hn shown) h1 h2 h3 h4 h5 h6 h7 hman
  have hrec : ∀ r ∈ m.an, r.name = lowName k.name ∧ r.type = k.type ∧ r.toRR.bad d.filter d.blocked = false := by
    intro r hr
    rw [h4, han] at hr
    obtain ⟨i, hi, rfl⟩ := List.mem_map.1 hr
    have hi := List.mem_of_mem_take hi
    exact ⟨(hitem i hi).1, (hitem i hi).2, good i hi⟩
  have hbel : believed d.zone m.qname m.qtype m.an m.qname [] = m.an := by
    unfold believed
    rw [List.filter_eq_self]
    intro r hr
    obtain ⟨x1, x2, -⟩ := hrec r hr
    rw [decide_eq_true_iff, h2, h3]
    exact ⟨x2, .inl ⟨by rw [x1]; exact lowered_same k.name, ask.cost⟩⟩
  have hlen : m.an.length ≤ 7 := by
    have := shown.few.2.1
    have : a ≤ lim.chain := this
    rw [h4, han, List.length_map, List.length_take]
    omega
  obtain ⟨kept, r1, r2⟩ := carried_answer d.cfg d.filter d.blocked d.asked d.printable d.up fine (by rw [rcode_answer h1]; decide) d.room
    (by omega) h8 (fun r hr => (hrec r hr).2.2) (by rw [h3]; exact ht.2.1) (by rw [h3]; exact ht.2.2) (cs := []) (rest := m.an) rfl trivial
    (fun r hr => by rw [(hrec r hr).2.1]; exact ht.2.1)
    (by
      rw [hbel]
      obtain ⟨r, hr⟩ := List.exists_mem_of_ne_nil _ hman
      exact ⟨r, hr, by rw [h3]; exact (hrec r hr).2.1⟩)
    (fun _ => hlen) (by omega) d.junk
  rw [hbel, h4, han] at r1
  refine ⟨kept, [], r1, trivial, ?_⟩
  rw [r2, h2, h3, h4, han]


/-- An alias, and where it leads. -/
theorem alias_kept {gs : List Given} (hl : Loadable gs) (port : ∀ g ∈ gs, g.Portable) {sh : Shelf} (has : sh.Has gs) {o o' : Order}
    (ho : Orders sh o) {lim : Limits} (hlim : 1 ≤ lim.chain ∧ 1 ≤ lim.total) {k : Query} (ask : Askable k.name k.type) {c : List UInt8}
    (hs : Says sh gs lim o k c o') (use : Usable c) {n : Name}
    (href : (Given.places gs).reply (lowName k.name) k.type = .records (false, n, 5))
    (ht : k.type ≠ 2 ∧ k.type ≠ 5 ∧ k.type ≠ 255) {i : Nat} (one : o n 5 = [i]) (some : sh.leads o k.type i ≠ [])
    (few : (sh.leads o k.type i).length ≤ 31)
    (d : Resolver) (inside : Inside d.zone (sh.host i)) (cheap : cost (sh.host i) < 260)
    (good : ∀ j ∈ i :: sh.leads o k.type i, (sh.item j).toRR.bad d.filter d.blocked = false) :
    n = lowName k.name ∧
      d.Keeps c k.name k.type ((i :: sh.leads o k.type i).map sh.item) [] 0
        (within d.cfg.min d.cfg.max (lifetime [sh.item i] ((sh.leads o k.type i).map sh.item))) := by
  obtain ⟨a, b, an, ns, ar, shown, m, h1, h2, h3, h4, h5, h6, h7, h8, h9⟩ := says_message hs (.inl ⟨href, rfl⟩) use
  have hp := Mara.Server.places_reply gs (lowName k.name) k.type
  rw [href] at hp
  obtain ⟨u, -, hx, hany⟩ := hp
  simp only [Prod.mk.injEq] at hx
  obtain ⟨-, rfl, rfl⟩ := hx
  refine ⟨rfl, ?_⟩
  have hn : LabelsOk (lowName k.name) := Mara.Lookup.lowName_ok ask.name.1
  have hans : sh.answers gs o (lowName k.name) 5 k.type = [i] := by
    unfold Shelf.answers
    rw [if_neg ht.1, if_neg (by decide), one]
  have hi : i ∈ sh.own false (lowName k.name) 5 := (ho _ _).mem_iff.1 (by rw [one]; simp)
  obtain ⟨-, -, -, -, -, x1, x2, -, -⟩ := given_of has hn hi
  have hhost : LabelsOk (sh.host i) := owned_host has ⟨_, _, _, hn, hi⟩
  have hitem : ∀ j ∈ sh.leads o k.type i, (sh.item j).name = sh.host i ∧ (sh.item j).type = k.type := by
    intro j hj
    unfold Shelf.leads at hj
    rw [if_pos x2] at hj
    obtain ⟨g, -, -, -, -, y1, y2, -, -⟩ := given_of has hhost ((ho _ _).mem_iff.1 (fromFirst_sub (List.mem_of_mem_take hj)))
    exact ⟨y1, y2⟩
  have ha : 0 < a := shown_some shown (by show sh.answers gs o _ _ _ ≠ []; rw [hans]; simp) hlim.1 hlim.2
  have han : an = i :: sh.leads o k.type i := by
    have := shown.an
    rw [this]
    show ((sh.answers gs o _ _ _).take a).flatMap (fun i => i :: sh.leads o k.type i) = _
    rw [hans, List.take_of_length_le (by simp; omega)]
    simp
  have hman : m.an ≠ [] := by rw [h4, han]; simp
  have fine := shown_fine hl has port ho ask (shown_owned hl has ho hn shown) h1 h2 h3 h4 h5 h6 h7 hman
  have hbel : believed d.zone m.qname m.qtype ((sh.leads o k.type i).map sh.item) m.qname [sh.item i] = (i :: sh.leads o k.type i).map sh.item := by
    unfold believed
    rw [List.map_cons]
    congr 1
    have : (sh.item i).target = sh.host i := rfl
    rw [this, if_pos inside]
    unfold believed
    rw [List.filter_eq_self]
    intro r hr
    obtain ⟨j, hj, rfl⟩ := List.mem_map.1 hr
    rw [decide_eq_true_iff, h3]
    exact ⟨(hitem j hj).2, .inr ⟨by rw [(hitem j hj).1]; rfl, cheap⟩⟩
  have hg : ∀ r ∈ m.an, r.toRR.bad d.filter d.blocked = false := by
    intro r hr
    rw [h4, han] at hr
    obtain ⟨j, hj, rfl⟩ := List.mem_map.1 hr
    exact good j hj
  obtain ⟨kept, r1, r2⟩ := carried_answer d.cfg d.filter d.blocked d.asked d.printable d.up fine (by rw [rcode_answer h1]; decide) d.room
    (by omega) h8 hg (by rw [h3]; exact ht.2.1) (by rw [h3]; exact ht.2.2) (cs := [sh.item i]) (rest := (sh.leads o k.type i).map sh.item)
    (by rw [h4, han]; rfl) ⟨x2, ⟨by rw [h2, x1]; exact lowered_same k.name, by rw [h2]; exact ask.cost⟩, trivial⟩
    (fun r hr => by
      obtain ⟨j, hj, rfl⟩ := List.mem_map.1 hr
      rw [(hitem j hj).2]
      exact ht.2.1)
    (by
      rw [hbel]
      obtain ⟨j, hj⟩ := List.exists_mem_of_ne_nil _ some
      exact ⟨sh.item j, List.mem_map.2 ⟨j, by simp [hj], rfl⟩, by rw [h3]; exact (hitem j hj).2⟩)
    (fun h => by cases h) (by rw [h4, han, List.length_map, List.length_cons]; omega) d.junk
  rw [hbel] at r1
  refine ⟨kept, [], r1, trivial, ?_⟩
  rw [r2, h2, h3]

theorem usable_cut {m : Msg} {a b x y : UInt8} (h : m.head = [a, b, x, y]) (hx : (x ||| 2) &&& 2 = 2) : ¬ Usable m.cutHeader := by
  rintro ⟨h1, -⟩
  unfold Msg.cutHeader at h1
  rw [h] at h1
  simp only [List.append_assoc, List.cons_append, List.getD_cons_succ, List.getD_cons_zero] at h1
  rw [hx] at h1
  cases h1

/-- There is nothing, or nothing of that type. -/
theorem denial_kept {gs : List Given} (hl : Loadable gs) (port : ∀ g ∈ gs, g.Portable) {sh : Shelf} (has : sh.Has gs) {o o' : Order}
    (ho : Orders sh o) {lim : Limits} {k : Query} (ask : Askable k.name k.type) {c : List UInt8}
    (hs : Says sh gs lim o k c o') (use : Usable c) {n : Name} {code : UInt8}
    (href : (Given.places gs).reply (lowName k.name) k.type = .noData (false, n, 6) ∧ code = 2 ∨
      (Given.places gs).reply (lowName k.name) k.type = .nxDomain (false, n, 6) ∧ code = 1) (hn : LabelsOk n) (d : Resolver) :
    ∃ i, (o n 6).head? = some i ∧
      d.Keeps c k.name k.type [] [sh.item i] code (within d.cfg.min d.cfg.max (lifetime [] [sh.item i])) := by
  cases hs with
  | records h1 _ _ _ => rcases href with ⟨e, _⟩ | ⟨e, _⟩ <;> rcases h1 with ⟨h1, _⟩ | ⟨h1, _⟩ <;> rw [e] at h1 <;> cases h1
  | tooLong h1 _ _ _ => rcases href with ⟨e, _⟩ | ⟨e, _⟩ <;> rcases h1 with ⟨h1, _⟩ | ⟨h1, _⟩ <;> rw [e] at h1 <;> cases h1
  | star h1 _ => rcases href with ⟨e, _⟩ | ⟨e, _⟩ <;> rw [e] at h1 <;> cases h1
  | refused h1 => rcases href with ⟨e, _⟩ | ⟨e, _⟩ <;> rw [e] at h1 <;> cases h1
  | failure h1 => rcases href with ⟨e, _⟩ | ⟨e, _⟩ <;> rw [e] at h1 <;> cases h1
  | @denial n' i rcode r h1 h2 h3 =>
    have e : n' = n ∧ (rcode = 0 ∧ code = 2 ∨ rcode = 3 ∧ code = 1) := by
      rcases href with ⟨e, ea⟩ | ⟨e, ea⟩ <;> rcases h1 with ⟨h1, ha⟩ | ⟨h1, ha⟩ <;> rw [e] at h1 <;> cases h1
      · exact ⟨rfl, .inl ⟨ha, ea⟩⟩
      · exact ⟨rfl, .inr ⟨ha, ea⟩⟩
    obtain ⟨rfl, hcode⟩ := e
    refine ⟨i, h2, ?_⟩
    have hi : i ∈ sh.own false n' 6 := (ho _ _).mem_iff.1 (List.mem_of_head? h2)
    obtain ⟨-, -, -, -, -, -, x2, -, -⟩ := given_of has hn hi
    cases h3 with
    | whole s0 s1 s2 =>
      have hr : (Mara.Reply.denialMsg k.id (Given.mark gs false n' 6) k.rd rcode k.name k.type (sh.item i)).rcode = rcode := by
        rcases hcode with ⟨rfl, -⟩ | ⟨rfl, -⟩ <;> rfl
      have fine : Fine (Mara.Reply.denialMsg k.id (Given.mark gs false n' 6) k.rd rcode k.name k.type (sh.item i)) := by
        refine ⟨rfl, ask.name, ask.printable, ask.type, ?_, ?_, s0⟩
        · intro r hr
          have : r = sh.item i := by simpa [Msg.all, Mara.Reply.denialMsg] using hr
          rw [this]
          exact light_item has port hn hi
        · simp [Msg.all, Mara.Reply.denialMsg]
      obtain ⟨kept, r1, r2⟩ := carried_denial d.cfg d.filter d.blocked d.asked d.printable d.up fine
        (by rw [hr]; rcases hcode with ⟨rfl, -⟩ | ⟨rfl, -⟩ <;> decide) d.room (by omega) s1 rfl rfl rfl x2 d.junk
      refine ⟨[], [kept], trivial, ⟨r1, trivial⟩, ?_⟩
      rw [r2, hr]
      rcases hcode with ⟨rfl, rfl⟩ | ⟨rfl, rfl⟩ <;> rfl
    | cut _ _ =>
      refine absurd use (usable_cut (a := _) (b := _) (x := _) (y := _) rfl ?_)
      cases Given.mark gs false n' 6 <;> cases k.rd <;> decide
    | failed _ => exact absurd use (not_failure _ _)

/-- Star records, under the name that was asked for. -/
theorem star_kept {gs : List Given} (hl : Loadable gs) (port : ∀ g ∈ gs, g.Portable) {sh : Shelf} (has : sh.Has gs) {o o' : Order}
    (ho : Orders sh o) {lim : Limits} {k : Query} (ask : Askable k.name k.type) {c : List UInt8}
    (hs : Says sh gs lim o k c o') (use : Usable c) {n : Name}
    (href : (Given.places gs).reply (lowName k.name) k.type = .wildcard (true, n, k.type) k.type) (hn : LabelsOk n)
    (ht : k.type ≠ 2 ∧ k.type ≠ 5 ∧ k.type ≠ 255) (few : (sh.own true n k.type).length ≤ 7)
    (d : Resolver) (good : ∀ i ∈ sh.own true n k.type, (sh.item i).toRR.bad d.filter d.blocked = false) :
    sh.own true n k.type ≠ [] ∧
      d.Keeps c k.name k.type ((sh.own true n k.type).map fun i => { sh.item i with name := k.name }) [] 0
        (within d.cfg.min d.cfg.max (lifetime [] ((sh.own true n k.type).map fun i => { sh.item i with name := k.name }))) := by
  have hp := Mara.Server.places_reply gs (lowName k.name) k.type
  rw [href] at hp
  obtain ⟨u, hx, -, hany⟩ := hp
  simp only [Prod.mk.injEq] at hx
  obtain ⟨-, rfl, -⟩ := hx
  have hne := own_some has hn hany
  refine ⟨hne, ?_⟩
  cases hs with
  | records h1 _ _ _ => rcases h1 with ⟨h1, _⟩ | ⟨h1, _⟩ <;> rw [href] at h1 <;> cases h1
  | tooLong h1 _ _ _ => rcases h1 with ⟨h1, _⟩ | ⟨h1, _⟩ <;> rw [href] at h1 <;> cases h1
  | denial h1 _ _ => rcases h1 with ⟨h1, _⟩ | ⟨h1, _⟩ <;> rw [href] at h1 <;> cases h1
  | refused h1 => rw [href] at h1; cases h1
  | failure h1 => rw [href] at h1; cases h1
  | @star n' u' r h1 h2 =>
    rw [href] at h1
    cases h1
    have hsa : sh.starAnswers gs n k.type k.type = sh.own true n k.type := by
      unfold Shelf.starAnswers
      rw [if_neg ht.1]
    rw [hsa] at h2
    have hitem : ∀ i ∈ sh.own true n k.type, (sh.item i).type = k.type := by
      intro i hi
      obtain ⟨-, -, -, -, -, -, x2, -, -⟩ := given_of has hn hi
      exact x2
    have hshown : ∀ i ∈ sh.own true n k.type, sh.shownAs (sh.own true n k.type) k.name k.type i = { sh.item i with name := k.name } := by
      intro i hi
      unfold Shelf.shownAs
      rw [if_pos hi, ← hitem i hi]
    have hlen : k.name.length < 100 := by
      have h1 := ask.cost
      have h2 : ∀ l : Name, LabelsOk l → 3 * l.length ≤ (l.map fun x => x.length + 2).sum := by
        intro l
        induction l with
        | nil => simp
        | cons x l ih =>
          intro h
          have := (h x (by simp)).1
          have := ih fun y hy => h y (by simp [hy])
          simp only [List.map_cons, List.sum_cons, List.length_cons]
          omega
      have := h2 k.name ask.name.1
      omega
    have hlight : ∀ i, Owned sh i → Light (sh.shownAs (sh.own true n k.type) k.name k.type i) := by
      intro i hi
      have l := hi.light has port
      by_cases hm : i ∈ sh.own true n k.type
      · rw [hshown i hm]
        exact ⟨⟨⟨l.sound.ok.type, l.sound.ok.cls, l.sound.ok.ttl, l.sound.ok.size, l.sound.ok.form⟩, ask.name, l.sound.names, l.sound.ttl, l.sound.a, l.sound.txt⟩, hlen, l.names, l.ttl, l.aaaa, l.cls⟩
      · unfold Shelf.shownAs
        rw [if_neg hm]
        exact l
    cases h2 with
    | whole s0 s1 s2 =>
      have hoth : ∀ i ∈ sh.starOthers gs n k.type k.type, Owned sh i := by
        intro i hi
        unfold Shelf.starOthers at hi
        rw [if_neg ht.1] at hi
        exact servers_owned hl hi
      have hone : ∀ i ∈ sh.oneAddress (sh.own true n k.type ++ sh.starOthers gs n k.type k.type), Owned sh i := by
        intro i hi
        unfold Shelf.oneAddress at hi
        obtain ⟨j, hj, he⟩ := List.mem_filterMap.1 hi
        have hjo : Owned sh j := by
          rcases List.mem_append.1 hj with h | h
          · exact ⟨_, _, _, hn, h⟩
          · exact hoth j h
        split at he
        · exact ⟨false, _, 1, owned_host has hjo, List.mem_of_head? he⟩
        · cases he
      have fine : Fine (Mara.Reply.starMsg (sh.shownAs (sh.own true n k.type) k.name k.type) sh.item k.id (Given.mark gs true n k.type) k.name k.type
          (sh.own true n k.type) (sh.starOthers gs n k.type k.type)
          (sh.oneAddress (sh.own true n k.type ++ sh.starOthers gs n k.type k.type))) := by
        refine ⟨rfl, ask.name, ask.printable, ask.type, ?_, ?_, s0⟩
        · intro r hr
          unfold Msg.all at hr
          rcases List.mem_append.1 hr with hr | hr
          · rcases List.mem_append.1 hr with hr | hr
            · obtain ⟨i, hi, rfl⟩ := List.mem_map.1 hr
              exact hlight i ⟨_, _, _, hn, hi⟩
            · obtain ⟨i, hi, rfl⟩ := List.mem_map.1 hr
              exact hlight i (hoth i hi)
          · obtain ⟨i, hi, rfl⟩ := List.mem_map.1 hr
            exact (hone i hi).light has port
        · unfold Msg.all
          intro e
          exact hne (List.map_eq_nil_iff.1 (List.append_eq_nil_iff.1 (List.append_eq_nil_iff.1 e).1).1)
      have hrec : ∀ r ∈ (sh.own true n k.type).map (sh.shownAs (sh.own true n k.type) k.name k.type),
          r.name = k.name ∧ r.type = k.type ∧ r.toRR.bad d.filter d.blocked = false := by
        intro r hr
        obtain ⟨i, hi, rfl⟩ := List.mem_map.1 hr
        rw [hshown i hi]
        exact ⟨rfl, hitem i hi, good i hi⟩
      have hbel : believed d.zone k.name k.type ((sh.own true n k.type).map (sh.shownAs (sh.own true n k.type) k.name k.type)) k.name [] =
          (sh.own true n k.type).map (sh.shownAs (sh.own true n k.type) k.name k.type) := by
        unfold believed
        rw [List.filter_eq_self]
        intro r hr
        obtain ⟨x1, x2, -⟩ := hrec r hr
        rw [decide_eq_true_iff]
        exact ⟨x2, .inl ⟨by rw [x1]; rfl, ask.cost⟩⟩
      obtain ⟨kept, r1, r2⟩ := carried_answer d.cfg d.filter d.blocked d.asked d.printable d.up fine (by rw [rcode_answer rfl]; decide) d.room
        (by omega) s1 (fun r hr => (hrec r hr).2.2) ht.2.1 ht.2.2 (cs := []) rfl trivial
        (fun r hr => by rw [(hrec r hr).2.1]; exact ht.2.1)
        (by
          obtain ⟨i, hi⟩ := List.exists_mem_of_ne_nil _ hne
          have hm : sh.shownAs (sh.own true n k.type) k.name k.type i ∈ (sh.own true n k.type).map (sh.shownAs (sh.own true n k.type) k.name k.type) :=
            List.mem_map.2 ⟨i, hi, rfl⟩
          exact ⟨_, hbel.symm ▸ hm, (hrec _ hm).2.1⟩)
        (fun _ => by
          show ((sh.own true n k.type).map (sh.shownAs (sh.own true n k.type) k.name k.type)).length ≤ 7
          rw [List.length_map]; exact few) (by
          show ((sh.own true n k.type).map (sh.shownAs (sh.own true n k.type) k.name k.type)).length ≤ 32
          rw [List.length_map]; omega) d.junk
      have hmap : (sh.own true n k.type).map (sh.shownAs (sh.own true n k.type) k.name k.type) =
          (sh.own true n k.type).map fun i => { sh.item i with name := k.name } := List.map_congr_left hshown
      have r1 : SameRecs (believed d.zone k.name k.type ((sh.own true n k.type).map (sh.shownAs (sh.own true n k.type) k.name k.type)) k.name []) kept := r1
      rw [hbel, hmap] at r1
      refine ⟨kept, [], r1, trivial, ?_⟩
      rw [r2, ← hmap]
      rfl
    | cut _ _ =>
      refine absurd use (usable_cut (a := _) (b := _) (x := _) (y := _) rfl ?_)
      cases Given.mark gs true n k.type <;> decide
    | failed _ => exact absurd use (not_failure _ _)


theorem orders_turns {sh : Shelf} {o : Order} (ho : Orders sh o) {o' : Order} (h : ∀ n t, ∃ j, o' n t = toBack^[j] (o n t)) : Orders sh o' := by
  intro n t
  obtain ⟨j, hj⟩ := h n t
  rw [hj]
  have key : ∀ (j : Nat) (l : List Nat), (toBack^[j] l).Perm l := by
    intro j
    induction j with
    | zero => intro l; exact .refl _
    | succ j ih =>
      intro l
      rw [Function.iterate_succ_apply]
      refine (ih _).trans ?_
      cases l with
      | nil => exact .refl _
      | cons x l => exact List.perm_append_singleton x l
  exact (key j _).trans (ho n t)

/-- A reply of a session is what the server says when the records have taken turns. -/
theorem session_says {sh : Shelf} {gs : List Given} {lim : Limits} {o o' : Order} {qs : List (Option Query)} {rs : List (Option (List UInt8))}
    (h : Session sh gs lim o qs rs o') (ho : Orders sh o) {j : Nat} {k : Query} {c : List UInt8} (hq : qs[j]? = some (some k))
    (hr : rs[j]? = some (some c)) (h255 : k.type ≠ 255) : ∃ o1 o2, Orders sh o1 ∧ Says sh gs lim o1 k c o2 := by
  induction h generalizing j with
  | nil => simp at hq
  | @asked o k' c' o1 ks rs o2 h1 h2 h3 ih =>
    cases j with
    | zero =>
      simp only [List.getElem?_cons_zero, Option.some.injEq] at hq hr
      subst hq hr
      exact ⟨o, o1, ho, h2⟩
    | succ j =>
      refine ih ?_ (by simpa using hq) (by simpa using hr)
      refine orders_turns ho fun n t => ?_
      obtain ⟨-, i, hi, -⟩ := Mara.Server.session_turns (.asked h1 h2 .nil) n t
      exact ⟨i, hi⟩
  | @all o k' c' ks rs o2 h1 _ _ _ ih =>
    cases j with
    | zero =>
      simp only [List.getElem?_cons_zero, Option.some.injEq] at hq
      subst hq
      exact absurd h1 h255
    | succ j => exact ih ho (by simpa using hq) (by simpa using hr)
  | @other o r ks rs o2 _ ih =>
    cases j with
    | zero => simp at hq
    | succ j => exact ih ho (by simpa using hq) (by simpa using hr)

/-- What the resolver has of a reply, according to what there is for the question. -/
structure Reaches (gs : List Given) (sh : Shelf) (lim : Limits) (d : Resolver) (k : Query) (c : List UInt8) : Prop where
  /-- records of the name -/
  records : ∀ n, (Given.places gs).reply (lowName k.name) k.type = .records (false, n, k.type) →
    k.type ≠ 2 → k.type ≠ 5 → (sh.own false n k.type).length ≤ 7 ∨ lim.chain ≤ 7 →
    (∀ i ∈ sh.own false n k.type, (sh.item i).toRR.bad d.filter d.blocked = false) →
    n = lowName k.name ∧ ∃ (l : List Nat) (a : Nat), l.Perm (sh.own false n k.type) ∧ 0 < a ∧
      (a = l.length ∨ a = lim.chain ∨ a = lim.total ∨ k.type = 15 ∧ lim.total ≤ a * (1 + 2 * lim.addrs)) ∧
      d.Keeps c k.name k.type ((l.take a).map sh.item) [] 0 (within d.cfg.min d.cfg.max (lifetime [] ((l.take a).map sh.item)))
  /-- an alias -/
  alias_ : ∀ n i, (Given.places gs).reply (lowName k.name) k.type = .records (false, n, 5) → k.type ≠ 2 → k.type ≠ 5 →
    sh.own false n 5 = [i] → sh.own false (sh.host i) k.type ≠ [] → (sh.own false (sh.host i) k.type).length ≤ 31 →
    Inside d.zone (sh.host i) → cost (sh.host i) < 260 →
    (∀ j ∈ i :: sh.own false (sh.host i) k.type, (sh.item j).toRR.bad d.filter d.blocked = false) →
    n = lowName k.name ∧ ∃ l : List Nat, l.head? = (sh.own false (sh.host i) k.type).head? ∧ l.Subperm (sh.own false (sh.host i) k.type) ∧
      d.Keeps c k.name k.type ((i :: l).map sh.item) [] 0 (within d.cfg.min d.cfg.max (lifetime [sh.item i] (l.map sh.item)))
  /-- nothing -/
  denial : ∀ n code, (Given.places gs).reply (lowName k.name) k.type = .noData (false, n, 6) ∧ code = 2 ∨
      (Given.places gs).reply (lowName k.name) k.type = .nxDomain (false, n, 6) ∧ code = 1 →
    ∃ i ∈ sh.own false n 6, d.Keeps c k.name k.type [] [sh.item i] code (within d.cfg.min d.cfg.max (lifetime [] [sh.item i]))
  /-- star records -/
  star : ∀ n, (Given.places gs).reply (lowName k.name) k.type = .wildcard (true, n, k.type) k.type →
    k.type ≠ 2 → k.type ≠ 5 → (sh.own true n k.type).length ≤ 7 →
    (∀ i ∈ sh.own true n k.type, (sh.item i).toRR.bad d.filter d.blocked = false) →
    sh.own true n k.type ≠ [] ∧
      d.Keeps c k.name k.type ((sh.own true n k.type).map fun i => { sh.item i with name := k.name }) [] 0
        (within d.cfg.min d.cfg.max (lifetime [] ((sh.own true n k.type).map fun i => { sh.item i with name := k.name })))


theorem place_labels {gs : List Given} (hl : Loadable gs) {star : Bool} {n : Name} {t : Nat} (h : gs.any (Given.at? star n t) = true) : LabelsOk n := by
  obtain ⟨g, hg, hga⟩ := List.any_eq_true.1 h
  unfold Given.at? at hga
  obtain ⟨-, b, -⟩ := of_decide_eq_true hga
  rw [← b]
  exact (hl.fit g hg).name.1

theorem reaches {gs : List Given} (hl : Loadable gs) (port : ∀ g ∈ gs, g.Portable) {sh : Shelf} (has : sh.Has gs) {o o' : Order}
    (ho : Orders sh o) {lim : Limits} (hlim : 1 ≤ lim.chain ∧ 1 ≤ lim.total) {k : Query} (ask : Askable k.name k.type) {c : List UInt8}
    (hs : Says sh gs lim o k c o') (use : Usable c) (h255 : k.type ≠ 255) (d : Resolver) : Reaches gs sh lim d k c where
  records n href h2 h5 few good := by
    obtain ⟨r1, a, r2, r3, r4⟩ := answer_kept hl port has ho hlim ask hs use href ⟨h2, h5, h255⟩
      (by rw [(ho n k.type).length_eq]; exact few) d fun i hi => good i ((ho _ _).mem_iff.1 hi)
    exact ⟨r1, _, a, ho n k.type, r2, r3, r4⟩
  alias_ n i href h2 h5 one some few inside cheap good := by
    have hp := Mara.Server.places_reply gs (lowName k.name) k.type
    rw [href] at hp
    obtain ⟨u, -, hx, hany⟩ := hp
    have hn : LabelsOk n := by
      simp only [Prod.mk.injEq] at hx
      rw [hx.2.1]
      exact Mara.Lookup.lowName_ok ask.name.1
    have hone : o n 5 = [i] := by
      have := ho n 5
      rw [one] at this
      exact List.perm_singleton.1 this
    have h5' : (sh.item i).type = 5 := by
      obtain ⟨-, -, -, -, -, -, x2, -, -⟩ := given_of has hn (show i ∈ sh.own false n 5 by rw [one]; simp)
      exact x2
    have hlead : sh.leads o k.type i = (sh.fromFirst o (sh.host i) k.type).take 100 := by
      unfold Shelf.leads
      rw [if_pos h5']
    cases hown : sh.own false (sh.host i) k.type with
    | nil => exact absurd hown some
    | cons j rest =>
      have hff : sh.fromFirst o (sh.host i) k.type = (o (sh.host i) k.type).dropWhile fun x => x != j := by
        unfold Shelf.fromFirst
        rw [hown]
        rfl
      have hj : j ∈ o (sh.host i) k.type := (ho _ _).mem_iff.2 (by rw [hown]; simp)
      obtain ⟨tl, htl⟩ : ∃ tl, (o (sh.host i) k.type).dropWhile (fun x => x != j) = j :: tl := by
        generalize o (sh.host i) k.type = l at hj
        induction l with
        | nil => cases hj
        | cons x l ih =>
          by_cases hx : x = j
          · subst hx
            exact ⟨l, by simp⟩
          · rw [List.dropWhile_cons_of_pos (by simpa using hx)]
            exact ih (by simpa [Ne.symm hx] using hj)
      have hsub : (sh.leads o k.type i).Subperm (sh.own false (sh.host i) k.type) := by
        rw [hlead, hff]
        exact (((List.take_sublist _ _).trans (List.dropWhile_sublist _)).subperm).trans (ho _ _).subperm
      obtain ⟨r1, r2⟩ := alias_kept hl port has ho hlim ask hs use href ⟨h2, h5, h255⟩ hone
        (by rw [hlead, hff, htl]; simp) (by have := hsub.length_le; omega) d inside cheap (fun x hx => by
          rcases List.mem_cons.1 hx with rfl | hx
          · exact good _ (by simp)
          · exact good _ (List.mem_cons_of_mem _ (hsub.subset hx)))
      refine ⟨r1, _, ?_, hown ▸ hsub, r2⟩
      rw [hlead, hff, htl]
      rfl
  denial n code href := by
    have hn : LabelsOk n := by
      have hp := Mara.Server.places_reply gs (lowName k.name) k.type
      rcases href with ⟨e, -⟩ | ⟨e, -⟩ <;> rw [e] at hp <;> obtain ⟨m, hx, hany⟩ := hp <;> simp only [Prod.mk.injEq] at hx <;> rw [hx.2.1] <;>
        exact place_labels hl hany
    obtain ⟨i, r1, r2⟩ := denial_kept hl port has ho ask hs use href hn d
    exact ⟨i, (ho _ _).mem_iff.1 (List.mem_of_head? r1), r2⟩
  star n href h2 h5 few good := by
    have hn : LabelsOk n := by
      have hp := Mara.Server.places_reply gs (lowName k.name) k.type
      rw [href] at hp
      obtain ⟨m, hx, -, hany⟩ := hp
      simp only [Prod.mk.injEq] at hx
      rw [hx.2.1]
      exact place_labels hl hany
    exact star_kept hl port has ho ask hs use href hn ⟨h2, h5, h255⟩ few d good

/-- **C106.** An authoritative server is given records that can be stored and sent and that another program can read.  Then for all
packets that come to it, every reply that is not cut short and is no failure, handed to a resolver that asked that question, leaves in
the resolver's cache exactly the records there are for the question, for as long as they allow: those of the name, an alias and where it
leads, star records under the name asked for, or the denial with the SOA record. -/
theorem resolver_keeps {gs : List Given} (hl : Loadable gs) (ht : Given.Tidy gs) (port : ∀ g ∈ gs, g.Portable) (v6 : Bool) :
    ∃ s, Mara.Big.load gs Mara.Big.empty = .ok s ∧ ∃ sh : Shelf, sh.Has gs ∧
      ∀ ks, (∀ q, q ∈ ks ↔ (s.dict q).isSome = true) →
      ∃ l, Mara.Big.addAn v6 ks ⟨s, fun _ => {}⟩ = .ok l ∧
      ∀ (junk : Nat → Mara.Reply.Node) (cfg : Mara.Server.Cfg), Mara.Lookup.Usual cfg.look → 1 ≤ cfg.reply.maxTotal → cfg.reply.maxTotal ≤ 20 →
      1 ≤ cfg.reply.maxChain → cfg.reply.v6 = v6 →
      ∀ (ps : List Mara.Server.Packet) (qs : List (Option Query)), List.Forall₂ (Mara.Server.Arrives cfg.look) ps qs →
      ∃ rs s', Mara.Server.serve cfg ps (Mara.Server.start l junk) = .ok (rs, s') ∧
        ∀ (j : Nat) k c, qs[j]? = some (some k) → rs[j]? = some (some c) → k.type ≠ 255 → Askable k.name k.type → Usable c →
        ∀ d : Resolver, Reaches gs sh (Mara.Server.limits cfg.reply) d k c := by
  obtain ⟨s, h1, sh, h2, h3⟩ := Mara.Server.server_session hl ht v6
  refine ⟨s, h1, sh, h2, fun ks hks => ?_⟩
  obtain ⟨l, h4, h5⟩ := h3 ks hks
  refine ⟨l, h4, fun junk cfg hu ht1 ht2 hc hv ps qs hps => ?_⟩
  obtain ⟨rs, s', o', h6, h7⟩ := h5 junk cfg hu ht2 hv ps qs hps
  refine ⟨rs, s', h6, fun j k c hq hr h255 ask use d => ?_⟩
  obtain ⟨o1, o2, q1, q2⟩ := session_says h7 (fun _ _ => .refl _) hq hr h255
  exact reaches hl port h2 q1 ⟨hc, ht1⟩ ask q2 use h255 d

end Interop
