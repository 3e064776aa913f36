import Verif.Mara.ServerMask
/-!
# Lemmas: what a reply is made of, and the order of the records after it
-/

namespace Mara
namespace Server

open Dw (Res)
open Spec
open Big (Key enc base Cell)
open Reply (Chain Closed SameOn Heap Node toEnd)

/-- The records of the answer section. -/
def World.answers (W : World) (o : Order) (n : Name) (u t : Nat) : List Nat :=
  if t = 2 then o n u ++ W.tail (encName n, u) else if u = 2 then [] else o n u

/-- The records of the authority section. -/
def World.others (W : World) (o : Order) (n : Name) (u t : Nat) : List Nat :=
  if t = 2 then [] else if u = 2 then o n u else W.tail (encName n, u)

/-- The order after a reply. -/
def turnIf (cfg : Reply.Cfg) (o : Order) (n : Name) (u t : Nat) : Order := if cfg.maxAr = 1 ∧ t ≠ 2 ∧ u ≠ 2 then o.turn n u else o

theorem toEnd_eq (l : List Nat) : toEnd l = toBack l := by cases l <;> rfl

theorem toBack_perm (l : List Nat) : (toBack l).Perm l := by
  cases l with
  | nil => exact .rfl
  | cons x l => exact (List.perm_append_comm (l₁ := l) (l₂ := [x]))

theorem turn_short (o : Order) (n : Name) (u : Nat) (h : (o n u).length ≤ 1) : o.turn n u = o := by
  funext n' t'
  unfold Order.turn
  split
  · rename_i e
    rw [e.1, e.2]
    match o n u, h with
    | [], _ => rfl
    | [x], _ => rfl
  · rfl

section
variable {W : World} {v6 : Bool} {h0 : Heap} {dict : List UInt8 → Option Cell} {o : Order} {h : Heap}

theorem Stands.two (st : Stands W v6 h0 dict) (k : Key) (h2 : k.2 = 2) : W.tail k = [] := by
  rcases st.tail k with h | ⟨h, _⟩
  · exact h
  · exact absurd h2 h

theorem answers_others (st : Stands W v6 h0 dict) (o : Order) (n : Name) (u t : Nat) :
    W.answers o n u t ++ W.others o n u t = o n u ++ W.tail (encName n, u) := by
  unfold World.answers World.others
  split
  · simp
  · split
    · rename_i h2
      rw [st.two (encName n, u) h2]
      simp
    · rfl

theorem Mask.typeOf (st : Stands W v6 h0 dict) (m : Mask W v6 o h) {n : Name} {u i : Nat} (hn : LabelsOk n) (hi : i ∈ W.own (encName n, u)) :
    (W.item i).type = u := (st.item false n u hn i hi).2.2.1

theorem tail_type (st : Stands W v6 h0 dict) {k : Key} {i : Nat} (hi : i ∈ W.tail k) : (W.item i).type = 2 := by
  obtain ⟨_, z, hz, hi⟩ := st.tailPlain k i hi
  exact (st.item false z 2 hz i hi).2.2.1

theorem Mask.parts (st : Stands W v6 h0 dict) (m : Mask W v6 o h) {n : Name} {u : Nat} (hn : LabelsOk n) (t : Nat) :
    Reply.Parts h t (W.answers o n u t) (W.others o n u t) := by
  have hty : ∀ i ∈ o n u, ∀ p : Node, h[i]? = some p → p.type = u := by
    intro i hi p hp
    have hi := (m.perm n u hn).mem_iff.1 hi
    obtain ⟨q, hq, lk⟩ := m.looks n u hn i hi
    rw [hp] at hq
    injection hq with hq
    rw [hq, lk.type]
  have htl : ∀ i ∈ W.tail (encName n, u), ∀ p : Node, h[i]? = some p → p.type = 2 := by
    intro i hi p hp
    rw [(m.good.holds i p hp).type]
    exact tail_type st hi
  unfold World.answers World.others
  by_cases h2 : t = 2
  · exact .inl ⟨h2, if_pos h2⟩
  · refine .inr ⟨h2, ?_⟩
    rw [if_neg h2, if_neg h2]
    split
    · rename_i hu
      refine ⟨by simp, fun i hi p hp => ?_⟩
      rw [hty i hi p hp, hu]
    · rename_i hu
      refine ⟨fun i hi p hp => ?_, htl⟩
      rw [hty i hi p hp]
      exact hu

theorem Mask.first (m : Mask W v6 o h) {n : Name} {u : Nat} (hn : LabelsOk n) (hne : W.own (encName n, u) ≠ []) : ∃ f l, o n u = f :: l := by
  cases e : o n u with
  | nil =>
    have := m.perm n u hn
    rw [e] at this
    exact absurd this.symm.eq_nil hne
  | cons f l => exact ⟨f, l, rfl⟩

theorem Looks.next {k : Key} {i : Nat} {p : Node} (lk : Looks W v6 k i p) (x : Option Nat) : Looks W v6 k i { p with next := x } :=
  ⟨lk.query, lk.type, lk.auth, lk.data, lk.ttl, lk.ip, lk.ip6, lk.led, lk.onlist⟩

/-- After a reply, the records are in memory in the order that is next. -/
theorem Mask.after (st : Stands W v6 h0 dict) (m : Mask W v6 o h) (cfg : Reply.Cfg) {n : Name} {u : Nat} (hn : LabelsOk n)
    (hne : W.own (encName n, u) ≠ []) (t : Nat) {first : Nat} (hf : (o n u).head? = some first) :
    Mask W v6 (turnIf cfg o n u t) (Reply.after cfg t h (W.answers o n u t) (W.others o n u t) first).1 ∧
      some (Reply.after cfg t h (W.answers o n u t) (W.others o n u t) first).2 = (turnIf cfg o n u t n u).head? := by
  by_cases hturn : cfg.maxAr = 1 ∧ t ≠ 2 ∧ 2 ≤ (W.answers o n u t).length
  · obtain ⟨h1, h2, h3⟩ := hturn
    have hu : u ≠ 2 := by
      rintro rfl
      simp [World.answers, h2] at h3
    have ea : W.answers o n u t = o n u := by simp [World.answers, h2, hu]
    have eo : W.others o n u t = W.tail (encName n, u) := by simp [World.others, h2, hu]
    have et : turnIf cfg o n u t = o.turn n u := if_pos ⟨h1, h2, hu⟩
    have hparts := m.parts st hn (u := u) t
    have hchain := m.chain n u hn hne
    rw [hf] at hchain
    rw [ea] at h3
    rw [ea, eo] at hparts ⊢
    rw [et]
    obtain ⟨hg, hc⟩ := Reply.after_good (cfg := cfg) m.good hchain hparts
    rw [if_pos ⟨h1, h2⟩, toEnd_eq] at hc
    have hhead : some (Reply.after cfg t h (o n u) (W.tail (encName n, u)) first).2 = (o.turn n u n u).head? := by
      rw [show o.turn n u n u = toBack (o n u) by simp [Order.turn]]
      rw [Reply.chain_head hc]
      match o n u, h3 with
      | a :: b :: l, _ => rfl
    refine ⟨?_, hhead⟩
    -- the heap that comes out of it
    obtain ⟨f, b, rest, e⟩ : ∃ f b rest, o n u = f :: b :: rest := by
      match o n u, h3 with
      | a :: b :: l, _ => exact ⟨a, b, l, rfl⟩
    have eh : (Reply.after cfg t h (o n u) (W.tail (encName n, u)) first).1 =
        Reply.turned h f ((b :: rest).getLast (by simp)) (W.tail (encName n, u)).head? := by
      rw [e]
      unfold Reply.after
      simp only []
      rw [if_pos ⟨h1, h2⟩]
    have hlast : (b :: rest).getLast (by simp) ∈ b :: rest := List.getLast_mem _
    generalize hL : (b :: rest).getLast (by simp) = last at eh hlast
    have hnd : (o n u).Nodup := (m.perm n u hn).nodup_iff.2 (st.nodup _)
    have hfl : f ≠ last := by
      rw [e] at hnd
      rintro rfl
      exact (List.nodup_cons.1 hnd).1 hlast
    have mf : f ∈ W.own (encName n, u) := (m.perm n u hn).mem_iff.1 (by rw [e]; simp)
    have ml : last ∈ W.own (encName n, u) := (m.perm n u hn).mem_iff.1 (by rw [e]; exact List.mem_cons_of_mem _ hlast)
    have hout : ∀ i, i ∉ W.own (encName n, u) → (Reply.after cfg t h (o n u) (W.tail (encName n, u)) first).1[i]? = h[i]? := by
      intro i hi
      rw [eh, Reply.turned_get hfl, if_neg (by rintro rfl; exact hi ml), if_neg (by rintro rfl; exact hi mf)]
    have hnode : ∀ {j : Nat} {p : Node}, (Reply.after cfg t h (o n u) (W.tail (encName n, u)) first).1[j]? = some p →
        ∃ q x, h[j]? = some q ∧ p = { q with next := x } ∧
          (x = q.next ∨ x = some f ∨ x = (W.tail (encName n, u)).head?) := by
      intro j p hp
      rw [eh] at hp
      obtain ⟨q, hq, hp, hx⟩ := Reply.turned_node hfl hp
      refine ⟨q, _, hq, hp, ?_⟩
      rw [hx]
      split
      · exact .inr (.inl rfl)
      · split
        · exact .inr (.inr rfl)
        · exact .inl rfl
    refine ⟨hg, ⟨?_, ?_, ?_, ?_⟩, ?_, ?_, ?_, ?_⟩
    · intro i p j hi hp hj
      obtain ⟨q, x, hq, rfl, hx⟩ := hnode hp
      have hj : x = some j := hj
      rcases hx with hx | hx | hx
      · exact m.closed.next i q j hi hq (by rw [← hx, hj])
      · rw [hx] at hj
        injection hj with hj
        subst hj
        exact ⟨n, u, hn, mf⟩
      · rw [hx] at hj
        exact (st.tailPlain _ j (List.mem_of_mem_head? hj)).1
    · intro i p j hi hp hj
      obtain ⟨q, x, hq, rfl, hx⟩ := hnode hp
      exact m.closed.ip i q j hi hq hj
    · intro i p j hi hp hj
      obtain ⟨q, x, hq, rfl, hx⟩ := hnode hp
      exact m.closed.ip6 i q j hi hq hj
    · intro i p v j hi hp hj
      obtain ⟨q, x, hq, rfl, hx⟩ := hnode hp
      exact m.closed.list i q v j hi hq hj
    · intro n' t' hn' i hi
      obtain ⟨q, hq, lk⟩ := m.looks n' t' hn' i hi
      rw [eh]
      obtain ⟨p, hp, hpe, _⟩ := Reply.turned_has (x := (W.tail (encName n, u)).head?) hfl hq
      refine ⟨p, hp, ?_⟩
      rw [hpe]
      exact lk.next _
    · intro n' t' hn' hne'
      by_cases hk : n' = n ∧ t' = u
      · obtain ⟨rfl, rfl⟩ := hk
        rw [← hhead]
        rw [show o.turn n' t' n' t' = toBack (o n' t') by simp [Order.turn]]
        exact hc
      · rw [show o.turn n u n' t' = o n' t' from if_neg hk]
        refine chain_congr (m.chain n' t' hn' hne') fun i hi => hout i fun hi' => ?_
        rcases List.mem_append.1 hi with hi | hi
        · have hi := (m.perm n' t' hn').mem_iff.1 hi
          have := st.disj _ _ _ hi hi'
          injection this with e1 e2
          exact hk ⟨(Big.base_inj (a := false) (b := false) hn' hn e1).2, e2⟩
        · obtain ⟨_, z, hz, hi⟩ := st.tailPlain _ i hi
          have := st.disj _ _ _ hi hi'
          injection this with e1 e2
          exact hu e2.symm
    · intro n' t' hn'
      unfold Order.turn
      split
      · rename_i hk
        rw [hk.1, hk.2]
        exact (toBack_perm _).trans (m.perm n u hn)
      · exact m.perm n' t' hn'
    · intro n' hn'
      rw [show o.turn n u n' 2 = o n' 2 from if_neg fun hk => hu hk.2.symm]
      exact m.still n' hn'
  · have et : turnIf cfg o n u t = o := by
      unfold turnIf
      split
      · rename_i hc
        refine turn_short o n u ?_
        by_contra hlen
        exact hturn ⟨hc.1, hc.2.1, by simp [World.answers, hc.2.1, hc.2.2]; omega⟩
      · rfl
    rw [Reply.after_keep hturn, et]
    exact ⟨m, hf.symm⟩

/-- The records from the one on that was the first. -/
theorem Mask.from_ (st : Stands W v6 h0 dict) (m : Mask W v6 o h) {n : Name} (hn : LabelsOk n) (u : Nat) :
    Reply.chainOf h (W.own (encName n, u)).head? = W.shelf.fromFirst o n u ++
      (if W.own (encName n, u) = [] then [] else W.tail (encName n, u)) ∧
    ∀ i ∈ W.shelf.fromFirst o n u, i ∈ W.own (encName n, u) := by
  have e0 : W.shelf.own false n u = W.own (encName n, u) := rfl
  unfold Shelf.fromFirst
  rw [e0]
  cases hl : W.own (encName n, u) with
  | nil => exact ⟨by rw [if_pos rfl]; exact Reply.chainOf_eq m.good .nil, by intro i hi; cases hi⟩
  | cons a l =>
    simp only [List.head?_cons, reduceCtorEq, if_false]
    have hc := m.chain n u hn (by rw [hl]; simp)
    have hmem : a ∈ o n u := (m.perm n u hn).mem_iff.2 (by rw [hl]; simp)
    have hnd : (o n u).Nodup := (m.perm n u hn).nodup_iff.2 (st.nodup _)
    obtain ⟨pre, post, e⟩ := List.append_of_mem hmem
    have hpre : ∀ x ∈ pre, (x != a) = true := by
      intro x hx
      rw [e] at hnd
      have := (List.nodup_append.1 hnd).2.2 x hx a (by simp)
      simpa using this
    have ed : (o n u).dropWhile (fun j => j != a) = a :: post := by
      rw [e, List.dropWhile_append_of_pos hpre, List.dropWhile_cons_of_neg (by simp)]
    rw [ed]
    refine ⟨?_, fun i hi => ?_⟩
    · rw [e, List.append_assoc] at hc
      exact Reply.chainOf_eq m.good hc.suffix
    · rw [← hl]
      exact (m.perm n u hn).mem_iff.1 (by rw [e]; exact List.mem_append_right _ hi)

theorem takeWhile_left {p : Nat → Bool} {l r : List Nat} (h1 : ∀ i ∈ l, p i = true) (h2 : ∀ i ∈ r, p i = false) : (l ++ r).takeWhile p = l := by
  rw [List.takeWhile_append_of_pos h1]
  cases r with
  | nil => simp
  | cons a r => rw [List.takeWhile_cons_of_neg (by rw [h2 a (by simp)]; simp)]; simp

/-- The addresses of a host. -/
theorem Mask.front (st : Stands W v6 h0 dict) (m : Mask W v6 o h) {n : Name} (hn : LabelsOk n) {u : Nat} (hu : u ≠ 2) :
    Reply.front W.item (Reply.chainOf h (W.own (encName n, u)).head?) = W.shelf.fromFirst o n u := by
  obtain ⟨h1, h2⟩ := m.from_ st hn u
  rw [h1]
  unfold Reply.front
  refine takeWhile_left (fun i hi => ?_) (fun i hi => ?_)
  · simp [(st.item false n u hn i (h2 i hi)).2.2.1, hu]
  · split at hi
    · cases hi
    · simp [tail_type st hi]

theorem Mask.lead (st : Stands W v6 h0 dict) (m : Mask W v6 o h) {n : Name} (hn : LabelsOk n) (t : Nat) :
    Reply.lead W.item t 100 (Reply.chainOf h (W.own (encName n, t)).head?) = (W.shelf.fromFirst o n t).take 100 := by
  obtain ⟨h1, h2⟩ := m.from_ st hn t
  rw [h1]
  unfold Reply.lead
  rw [takeWhile_left (fun i hi => ?_) (fun i hi => ?_)]
  · simp [(st.item false n t hn i (h2 i hi)).2.2.1]
  · split at hi
    · cases hi
    · rw [tail_type st hi]
      by_cases h2 : t = 2
      · rw [st.two _ h2] at hi
        cases hi
      · simp [Ne.symm h2]

/-- The addresses for a record. -/
theorem Mask.groups (st : Stands W v6 h0 dict) (m : Mask W v6 o h) {cfg : Reply.Cfg} (hv : cfg.v6 = v6) {i : Nat} (hi : W.Plain i) :
    Reply.groups cfg W.item h i = W.shelf.hosts v6 o i := by
  obtain ⟨n, t, hn, hi⟩ := hi
  obtain ⟨p, hp, lk⟩ := m.looks n t hn i hi
  have hty : (W.item i).type = t := (st.item false n t hn i hi).2.2.1
  have hty' : (W.shelf.item i).type = t := hty
  have hho : W.shelf.host i = W.host i := rfl
  unfold Reply.groups Shelf.hosts Shelf.addresses
  rw [hp, hty', hho]
  simp only []
  rw [show p.type = t from lk.type]
  by_cases h5 : t = 5
  · rw [if_pos h5, if_pos h5]
  · rw [if_neg h5, if_neg h5, lk.ip, lk.ip6, hv]
    have hnil : Reply.front W.item (Reply.chainOf h none) = [] := by
      rw [Reply.chainOf_eq m.good .nil]; rfl
    by_cases hh : t = 2 ∨ t = 15
    · have hhn : LabelsOk (W.host i) := (st.host (star := false) hn hi (by omega)).1
      simp only [hh, true_and, if_true]
      rw [m.front st hhn (by simp)]
      cases v6 with
      | false => simp
      | true => simp only [if_true]; rw [m.front st hhn (by simp)]
    · simp only [hh, false_and, if_false]
      rw [hnil]

/-- What an alias leads to. -/
theorem Mask.aliases (st : Stands W v6 h0 dict) (m : Mask W v6 o h) {t : Nat} (ht : t < 65536) {i : Nat} (hi : W.Plain i) :
    Reply.aliases W.item h t i = W.shelf.leads o t i := by
  obtain ⟨n, u, hn, hi⟩ := hi
  obtain ⟨p, hp, lk⟩ := m.looks n u hn i hi
  have hty : (W.shelf.item i).type = u := (st.item false n u hn i hi).2.2.1
  have hho : W.shelf.host i = W.host i := rfl
  unfold Reply.aliases Shelf.leads
  rw [hp, hty, hho]
  simp only []
  rw [show p.type = u from lk.type]
  split
  · rename_i h5
    have hhn : LabelsOk (W.host i) := (st.host (star := false) hn hi (by omega)).1
    rw [lk.led h5 t ht]
    exact m.lead st hhn t
  · rfl

/-- What a reply has to go by. -/
def sourceOf (W : World) (cfg : Reply.Cfg) (o : Order) (n : Name) (u t : Nat) (on : Bool) : Source where
  chain := cfg.maxChain
  total := cfg.maxTotal
  addrs := cfg.maxAr
  tellNs := on
  answers := W.answers o n u t
  servers := W.others o n u t
  leads := W.shelf.leads o t
  hosts := fun i => W.shelf.hosts cfg.v6 (if i ∈ W.answers o n u t then o else turnIf cfg o n u t) i

theorem shown_mono {s s' : Source} (h1 : s.chain = s'.chain) (h2 : s.total = s'.total) (h3 : s.addrs = s'.addrs) (h4 : s.tellNs = s'.tellNs)
    (h5 : s.answers = s'.answers) (h6 : s.servers = s'.servers) (h7 : ∀ i ∈ s.answers, s.leads i = s'.leads i)
    (h8 : ∀ i ∈ s.answers ++ s.servers, s.hosts i = s'.hosts i) (h9 : ∀ i, (s.hosts i).length ≤ (s'.hosts i).length)
    {a b : Nat} {an ns ar : List Nat} (h : s.Shown a b an ns ar) : s'.Shown a b an ns ar := by
  have h10 : ∀ i ∈ s'.answers.take a ++ s'.servers.take b, s'.hosts i = s.hosts i := by
    intro i hi
    rw [← h5, ← h6] at hi
    refine (h8 i ?_).symm
    rcases List.mem_append.1 hi with hi | hi
    · exact List.mem_append_left _ (List.mem_of_mem_take hi)
    · exact List.mem_append_right _ (List.mem_of_mem_take hi)
  refine ⟨?_, ?_, ?_, ?_, ?_, ?_, ?_, ?_, ?_, ?_, ?_⟩
  · rw [h.an, h5]
    have : ∀ l : List Nat, (∀ i ∈ l, i ∈ s.answers) → (l.flatMap fun i => i :: s.leads i) = l.flatMap fun i => i :: s'.leads i := by
      intro l
      induction l with
      | nil => intro _; rfl
      | cons x l ih => intro hl; simp only [List.flatMap_cons]; rw [ih fun i hi => hl i (List.mem_cons_of_mem _ hi), h7 x (hl x (by simp))]
    exact this _ fun i hi => by rw [h5]; exact List.mem_of_mem_take hi
  · rw [h.ns, h6]
  · rw [← h5, ← h6, ← h1]; exact h.few
  · rw [← h2]; exact h.total
  · rw [← h4]; exact h.quiet
  · rw [← h5, ← h1, ← h2]; exact h.answers
  · rw [← h4, ← h6, ← h1, ← h2]; exact h.servers
  · intro j hj
    obtain ⟨i, hi, g, hg, hjg⟩ := h.from_ j hj
    rw [h5, h6] at hi
    exact ⟨i, hi, g, by rw [h10 i hi]; exact hg, hjg⟩
  · intro i hi g hg
    rw [h10 i hi] at hg
    rw [← h2, ← h3]
    exact h.each i (by rw [h5, h6]; exact hi) g hg
  · rw [← h2]; exact h.once
  · intro k hk
    rw [← h3]
    exact h.many k fun i => (h9 i).trans (hk i)

theorem groups_length (cfg : Reply.Cfg) {h : Heap} (g : Reply.Good h W.item) (o : Order) (i : Nat) :
    (Reply.groups cfg W.item h i).length ≤ (W.shelf.hosts cfg.v6 o i).length := by
  unfold Reply.groups
  cases hp : h[i]? with
  | none => simp
  | some p =>
    simp only []
    rw [(g.holds i p hp).type]
    unfold Shelf.hosts
    have : W.shelf.item i = W.item i := rfl
    rw [this]
    split
    · simp
    · split <;> simp

/-- The reply for records that are not star records, on the records as they are. -/
theorem Mask.success (st : Stands W v6 h0 dict) (m : Mask W v6 o h) {cfg : Reply.Cfg} (hcfg : cfg.maxTotal ≤ 20) (hv : cfg.v6 = v6)
    {n : Name} (hn : LabelsOk n) {u : Nat} (hne : W.own (encName n, u) ≠ []) {first : Nat} (hf : (o n u).head? = some first)
    {qname : Name} (hq : NameOk qname) {t : Nat} (ht : t < 65536) (id : Nat) (rd force long : Bool) :
    ∃ a b an ns ar d o', (sourceOf W cfg o n u t (W.auth (encName n, u) || decide (t ≠ 2 ∧ u = 2))).Shown a b an ns ar ∧
      Reply.udpsuccess cfg h first id (encName qname ++ be16 t) rd force long = .ok d ∧
      Mask W v6 o' d.heap ∧ (o' n u).head? = some d.head ∧
      (1024 ≤ (Reply.msg W.item id (force || W.auth (encName n, u)) rd qname t an ns ar).bytes.length ∧ d.reply = serverFailure id rd ∧
          (o' = o ∨ o' = turnIf cfg o n u t) ∨
        (Reply.msg W.item id (force || W.auth (encName n, u)) rd qname t an ns ar).bytes.length < 1024 ∧
          Reply.Delivered (Reply.msg W.item id (force || W.auth (encName n, u)) rd qname t an ns ar) long d.reply ∧ o' = turnIf cfg o n u t) := by
  have hfirst : first ∈ W.own (encName n, u) := (m.perm n u hn).mem_iff.1 (List.mem_of_mem_head? hf)
  obtain ⟨p, hp, lk⟩ := m.looks n u hn first hfirst
  have hchain := m.chain n u hn hne
  rw [hf, ← answers_others st o n u t] at hchain
  have hparts := m.parts st hn (u := u) t
  obtain ⟨a, b, an, ns, ar, d, hsh, hd, hres⟩ := Reply.reply_shows hcfg m.good hp hq ht hchain hparts id rd force long
  obtain ⟨a2, b2, an2, ns2, ar2, d2, hsh2, hd2, hres2⟩ := Reply.udpsuccess_total m.good hp hq ht hchain hparts id rd force long
  rw [hd] at hd2
  injection hd2 with hd2
  subst hd2
  obtain ⟨ma, hh⟩ := m.after st cfg hn hne t hf
  have hau : p.auth = W.auth (encName n, u) := lk.auth
  have hpt : p.type = u := lk.type
  rw [hau, hpt] at hsh
  rw [hau] at hres hres2
  have hpl : ∀ i ∈ W.answers o n u t ++ W.others o n u t, W.Plain i := by
    intro i hi
    rw [answers_others st] at hi
    rcases List.mem_append.1 hi with hi | hi
    · exact ⟨n, u, hn, (m.perm n u hn).mem_iff.1 hi⟩
    · exact (st.tailPlain _ i hi).1
  have hsh' : (sourceOf W cfg o n u t (W.auth (encName n, u) || decide (t ≠ 2 ∧ u = 2))).Shown a b an ns ar := by
    refine shown_mono (s := Reply.source cfg W.item h t (W.auth (encName n, u) || decide (t ≠ 2 ∧ u = 2)) (W.answers o n u t) (W.others o n u t) first)
      (s' := sourceOf W cfg o n u t (W.auth (encName n, u) || decide (t ≠ 2 ∧ u = 2))) rfl rfl rfl rfl rfl rfl ?_ ?_ ?_ hsh
    · intro i hi
      exact m.aliases st ht (hpl i (List.mem_append_left _ hi))
    · intro i hi
      show Reply.groups cfg W.item (if i ∈ W.answers o n u t then h else _) i = _
      have hpi := hpl i hi
      unfold sourceOf
      by_cases hia : i ∈ W.answers o n u t
      · simp only [hia, if_true]
        rw [m.groups st hv hpi, hv]
      · simp only [hia, if_false]
        rw [ma.groups st hv hpi, hv]
    · intro i
      show (Reply.groups cfg W.item (if i ∈ W.answers o n u t then h else _) i).length ≤ _
      split
      · exact groups_length cfg m.good _ i
      · exact groups_length cfg ma.good _ i
  have hafter : (d.heap, d.head) = Reply.after cfg t h (W.answers o n u t) (W.others o n u t) first →
      Mask W v6 (turnIf cfg o n u t) d.heap ∧ (turnIf cfg o n u t n u).head? = some d.head := by
    intro e
    rw [← e] at ma hh
    exact ⟨ma, hh.symm⟩
  rcases hres with ⟨r1, r2⟩ | ⟨r1, r2⟩
  · have hkeep : (d.heap, d.head) = (h, first) ∨ (d.heap, d.head) = Reply.after cfg t h (W.answers o n u t) (W.others o n u t) first := by
      rcases hres2 with ⟨_, _, h3⟩ | ⟨_, h3, _⟩
      · exact h3
      · exact .inr h3
    rcases hkeep with e | e
    · injection e with e1 e2
      exact ⟨a, b, an, ns, ar, d, o, hsh', hd, by rw [e1]; exact m, by rw [e2]; exact hf, .inl ⟨r1, r2, .inl rfl⟩⟩
    · obtain ⟨h1, h2⟩ := hafter e
      exact ⟨a, b, an, ns, ar, d, _, hsh', hd, h1, h2, .inl ⟨r1, r2, .inr rfl⟩⟩
  · have e : (d.heap, d.head) = Reply.after cfg t h (W.answers o n u t) (W.others o n u t) first := by
      rcases hres2 with ⟨_, h3, _⟩ | ⟨_, h3, _⟩
      · exact absurd h3 (Reply.delivered_not_failure (aa := force || W.auth (encName n, u)) rfl r2)
      · exact h3
    obtain ⟨h1, h2⟩ := hafter e
    exact ⟨a, b, an, ns, ar, d, _, hsh', hd, h1, h2, .inr ⟨r1, r2, rfl⟩⟩

end

end Server
end Mara
