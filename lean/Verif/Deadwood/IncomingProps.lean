import Verif.Deadwood.IncomingEq
/-!
# Properties: from a packet off the wire to the cache

`cacheDnsReply cfg filter blocked ns up packet count junk` is what is done with the `count` bytes that came from the servers
`ns`.
-/

namespace Dw
namespace Incoming
open DwStr Dissect Spec

/-! ### C105 -/

/-- C105.  Nothing undefined happens with a packet that is a message. -/
theorem packet_safe (cfg : Times) (filter : Bool) (blocked : List UInt8 → Bool) {ns : DwStr} {bs : List (List UInt8)}
    (hs : Servers ns bs) (up : Bool) {p : Msg} (hp : p.Plain) (h2 : p.rcode ≠ 2) {c spare : List UInt8} (h3 : 3 ≤ spare.length)
    (hc : c.length < 65536) (hf : p.From c) (junk : List UInt8) :
    cacheDnsReply cfg filter blocked ns up (c ++ spare) c.length junk ≠ .ub := by
  have hrecs := recsVia_length hf.recs
  have hall : p.all.length = p.an.length + p.ns.length + p.ar.length := by simp [Msg.all, Nat.add_assoc]
  obtain ⟨o, inp, p', Q, plen, qlen, same, hrep, uo, hr, hd, h7, hask, e⟩ := incoming_eq cfg filter blocked ns up hp h2 h3 hc hf junk
  rw [e]
  split
  · simp
  · rcases replyTtl_safe (inp := inp) cfg uo hd h7 (by omega) with e1 | ⟨t, e1⟩
    · rw [e1]; simp
    · rw [e1, Res.ok_bind]
      have := reply_safe cfg hs up hask hrep t junk
      cases hcr : cacheReply cfg ns up (Remote.dstr (encName (lowered p.qname) ++ be16 p.qtype)) inp t junk with
      | ok st => simp
      | err => simp
      | ub => exact absurd hcr this

/-- C105.  A reply with an address that is blocked is never believed; and only then the client is told so. -/
theorem packet_blocked (cfg : Times) (filter : Bool) (blocked : List UInt8 → Bool) (ns : DwStr)
    (up : Bool) {p : Msg} (hp : p.Plain) (h2 : p.rcode ≠ 2) {c spare : List UInt8} (h3 : 3 ≤ spare.length)
    (hc : c.length < 65536) (hf : p.From c) (junk : List UInt8) :
    cacheDnsReply cfg filter blocked ns up (c ++ spare) c.length junk = .ok .blocked ↔
      ∃ r ∈ p.an, r.toRR.bad filter blocked = true := by
  obtain ⟨o, inp, p', Q, plen, qlen, same, hrep, uo, hr, hd, h7, hask, e⟩ := incoming_eq cfg filter blocked ns up hp h2 h3 hc hf junk
  rw [e]
  by_cases hb : p.an.any (fun r => r.toRR.bad filter blocked) = true
  · rw [if_pos hb]
    simpa using hb
  · rw [if_neg hb]
    have hb' : ¬ ∃ r ∈ p.an, r.toRR.bad filter blocked = true := by simpa using hb
    refine ⟨fun h => ?_, fun h => absurd h hb'⟩
    exfalso
    cases h1 : replyTtl cfg o inp with
    | ok t =>
      rw [h1, Res.ok_bind] at h
      cases hcr : cacheReply cfg ns up (Remote.dstr (encName (lowered p.qname) ++ be16 p.qtype)) inp t junk with
      | ok st => rw [hcr] at h; cases h
      | err => rw [hcr] at h; cases h
      | ub => rw [hcr] at h; cases h
    | err => rw [h1] at h; cases h
    | ub => rw [h1] at h; cases h

/-- C105.  Of a packet with at most fifteen authority records only what may be kept is put in the cache, within the times
of the configuration.  Missing: packets with more authority records (`kept_outside`). -/
theorem packet_inside_partial (cfg : Times) (h30 : 30 ≤ cfg.max) (hmin : cfg.min ≤ cfg.max)
    (filter : Bool) (blocked : List UInt8 → Bool) {ns : DwStr} {bs : List (List UInt8)}
    (hs : Servers ns bs) (up : Bool) {p : Msg} (hp : p.Plain) (h2 : p.rcode ≠ 2) {c spare : List UInt8} (h3 : 3 ≤ spare.length)
    (hc : c.length < 65536) (hf : p.From c) (few : p.ns.length ≤ 15) (junk : List UInt8) {st : Step}
    (h : cacheDnsReply cfg filter blocked ns up (c ++ spare) c.length junk = .ok (.step st)) :
    (∀ e ∈ st.puts, MayKeep bs (lowered p.qname) p.qtype e.key e.value ∧ 30 ≤ e.ttl ∧ e.ttl ≤ cfg.max) ∧
    (∀ l, st.ns = some l → l = [0, 16] ∨ ∃ z x, l = encName z ++ x ∧ MayDelegate bs p.qname z) := by
  obtain ⟨o, inp, p', Q, plen, qlen, same, hrep, uo, hr, hd, h7, hask, e⟩ := incoming_eq cfg filter blocked ns up hp h2 h3 hc hf junk
  rw [e] at h
  split at h
  · cases h
  cases h1 : replyTtl cfg o inp with
  | err => rw [h1] at h; cases h
  | ub => rw [h1] at h; cases h
  | ok t =>
    rw [h1, Res.ok_bind] at h
    cases hcr : cacheReply cfg ns up (Remote.dstr (encName (lowered p.qname) ++ be16 p.qtype)) inp t junk with
    | err => rw [hcr] at h; cases h
    | ub => rw [hcr] at h; cases h
    | ok st' =>
      rw [hcr, Res.ok_bind] at h
      have : st' = st := by cases h; rfl
      subst this
      have hfew : p'.ns.length ≤ 15 := by rw [← sameRecs_length same.ns]; exact few
      have k1 := kept_inside_partial cfg hs up hask hrep hfew t junk hcr
      have k2 := kept_times cfg h30 hmin hs up hask hrep t junk hcr
      refine ⟨fun e he => ⟨k1.1 e he, (k2 e he).1, (k2 e he).2.1⟩, fun l hl => ?_⟩
      rcases k1.2 l hl with k | ⟨z, x, k, hm⟩
      · exact .inl k
      · exact .inr ⟨z, x, k, (mayDelegate_congr rfl (lowered_same _)).2 hm⟩

/-- C105.  A packet with an answer, with its aliases in front: exactly what is believed of it is kept, under the question in
lower case, for as long as its records allow (but for a minute at least, and within the times of the configuration). -/
theorem packet_answer (cfg : Times) (filter : Bool) (blocked : List UInt8 → Bool) {ns : DwStr} {bs : List (List UInt8)}
    (hs : Servers ns bs) (hctl : ∀ l ∈ bs, ∀ x ∈ l, 32 ≤ x.toNat) (up : Bool) {p : Msg} (hp : p.Plain) (h2 : p.rcode ≠ 2)
    {c spare : List UInt8} (h3 : 3 ≤ spare.length) (hc : c.length < 65536) (hf : p.From c)
    (hgood : ∀ r ∈ p.an, r.toRR.bad filter blocked = false)
    (h5 : p.qtype ≠ 5) (h255 : p.qtype ≠ 255) {cs rest : List Rec} (han : p.an = cs ++ rest)
    (hch : Chain p.qname cs) (hrest : ∀ r ∈ rest, r.type ≠ 5)
    (hfound : ∃ r ∈ believed bs p.qname p.qtype rest p.qname cs, r.type = p.qtype)
    (hcls : ∀ r ∈ p.an, r.cls = [0, 1]) (h7 : cs = [] → rest.length ≤ 7) (h32 : p.an.length ≤ 32)
    (hts : ∀ r ∈ p.an, r.ttl < 2147483648) (junk : List UInt8) :
    ∃ kept, SameRecs (believed bs p.qname p.qtype rest p.qname cs) kept ∧
      cacheDnsReply cfg filter blocked ns up (c ++ spare) c.length junk =
        .ok (.step ⟨[⟨encName (lowered p.qname) ++ be16 p.qtype, (⟨kept, [], [], 0⟩ : Answers).packed.enc,
          within cfg.min cfg.max (lifetime cs rest)⟩], none, none⟩) := by
  obtain ⟨o, inp, p', Q, plen, qlen, same, hrep, uo, hr, hd, h7', hask, e⟩ := incoming_eq cfg filter blocked ns up hp h2 h3 hc hf junk
  have hnb : ¬ p.an.any (fun r => r.toRR.bad filter blocked) = true := by
    simp only [List.any_eq_true, not_exists, not_and]
    intro r hr
    rw [hgood r hr]
    simp
  rw [e, if_neg hnb]
  have san : SameRecs (cs ++ rest) p'.an := by rw [← han]; exact same.an
  obtain ⟨cs', rest', e1, s1, s2⟩ := sameRecs_append san
  have hlow := lowered_same p.qname
  have hbel := believed_congr (z := bs) hlow p.qtype s2 s1 hlow
  have htype5 : ∀ {cs : List Rec} {n : List (List UInt8)}, Chain n cs → ∀ r ∈ cs, r.type = 5 := fun h => chain_types h
  have hne : rest ≠ [] := by
    rintro rfl
    obtain ⟨r, hr, ht⟩ := hfound
    have : ∀ (cs : List Rec) (n : List (List UInt8)), Chain n cs → ∀ r ∈ believed bs p.qname p.qtype [] n cs, r.type = 5 := by
      intro cs
      induction cs with
      | nil => intro n _ r hr; simp [believed] at hr
      | cons x cs ih =>
        intro n hc r hr
        unfold believed at hr
        rcases List.mem_cons.1 hr with rfl | hr
        · exact hc.1
        · split at hr
          · exact ih _ hc.2.2 r hr
          · simp at hr
    exact h5 (ht ▸ this cs _ hch r hr)
  obtain ⟨t, k1, k2⟩ : ∃ t, replyTtl cfg o inp = .ok t ∧
      within cfg.min cfg.max t = within cfg.min cfg.max (lifetime cs rest) := by
    cases rest with
    | nil => exact absurd rfl hne
    | cons r rest =>
      cases rest' with
      | nil => exact s2.elim
      | cons r' rest' =>
        have hrecs := recsVia_length hf.recs
        have hall : p.all.length = p.an.length + p.ns.length + p.ar.length := by simp [Msg.all, Nat.add_assoc]
        have hlen := sameRecs_length s1
        have hanl : p.an.length = cs.length + (rest.length + 1) := by rw [han]; simp
        have hts' : ∀ x ∈ p'.an, x.ttl < 2147483648 :=
          sameRecs_forall (fun r r' h hp => h.ttl ▸ hp) same.an hts
        obtain ⟨t, k1, k2⟩ := replyTtl_exact (inp := inp) cfg uo hd h7' (by omega) hr (cs := cs') (r := r')
          (rest := rest' ++ p'.ns ++ p'.ar) (by simp [Answers.all, e1])
          (fun x hx => chain_types (chain_congr s1 hlow hch) x hx) (by rw [← s2.1.type]; exact hrest r (by simp))
          (fun x hx => (hrep.recs x hx).ok) (fun x hx => hts' x (by
            rw [e1]
            rcases List.mem_append.1 hx with hx | hx
            · exact List.mem_append_left _ hx
            · rw [List.mem_singleton.1 hx]; simp)) (by rw [if_neg (by omega)]; omega)
        refine ⟨t, k1, k2.trans ?_⟩
        have : lifetime cs' (r' :: (rest' ++ p'.ns ++ p'.ar)) = lifetime cs (r :: rest) := by
          unfold lifetime
          have hx : SameRecs (cs ++ [r]) (cs' ++ [r']) := sameRecs_join s1 ⟨s2.1, trivial⟩
          have key : ∀ {a b : List Rec}, SameRecs a b → ∀ m : Nat,
              b.foldl (fun t r => min t r.ttl) m = a.foldl (fun t r => min t r.ttl) m := by
            intro a
            induction a with
            | nil => intro b h m; cases b with
              | nil => rfl
              | cons => exact h.elim
            | cons x a ih => intro b h m; cases b with
              | nil => exact h.elim
              | cons y b => rw [List.foldl_cons, List.foldl_cons, ih h.2, h.1.ttl]
          simp only [List.take_succ_cons, List.take_zero]
          rw [key hx]
        rw [this]
  have key := answer_exact cfg hs hctl up hask h5 h255 hrep (by
      rw [← same.kind]
      simp only [Msg.answers]
      split <;> simp) e1 (chain_congr s1 hlow hch)
    (sameRecs_forall (fun r r' h hp => h.type ▸ hp) s2 hrest)
    (sameRecs_exists (P := fun r => r.type = p.qtype) (fun r r' h hp => h.type ▸ hp) hbel hfound)
    (sameRecs_forall (P := fun r => r.cls = [0, 1]) (fun r r' h hp => h.cls ▸ hp) same.an hcls)
    (by
      intro hnil
      rw [← sameRecs_length s2]
      apply h7
      have := sameRecs_length s1
      rw [hnil] at this
      exact List.length_eq_zero_iff.1 (by simpa using this))
    (by rw [← sameRecs_length same.an]; exact h32) t junk
  refine ⟨_, hbel, ?_⟩
  rw [k1, Res.ok_bind, key, Res.ok_bind, k2]

/-- C105.  A packet without answers whose first authority record is an SOA record: it is kept that there is no such name or
no such record, for as long as the SOA record allows. -/
theorem packet_denial (cfg : Times) (filter : Bool) (blocked : List UInt8 → Bool) {ns : DwStr} {bs : List (List UInt8)}
    (hs : Servers ns bs) (hctl : ∀ l ∈ bs, ∀ x ∈ l, 32 ≤ x.toNat) (up : Bool) {p : Msg} (hp : p.Plain) (h2 : p.rcode ≠ 2)
    {c spare : List UInt8} (h3 : 3 ≤ spare.length) (hc : c.length < 65536) (hf : p.From c)
    (han : p.an = []) {r : Rec} {rest : List Rec} (hns : p.ns = r :: rest) (h6 : r.type = 6)
    (hcls : ∀ r ∈ p.all, r.cls = [0, 1]) (hts : r.ttl < 2147483648) (junk : List UInt8) :
    ∃ d, SameAnswers (denial p.answers) d ∧
      cacheDnsReply cfg filter blocked ns up (c ++ spare) c.length junk =
        .ok (.step ⟨[⟨encName (lowered p.qname) ++ be16 p.qtype, d.packed.enc,
          within cfg.min cfg.max (lifetime [] [r])⟩], none, none⟩) := by
  obtain ⟨o, inp, p', Q, plen, qlen, same, hrep, uo, hr, hd, h7', hask, e⟩ := incoming_eq cfg filter blocked ns up hp h2 h3 hc hf junk
  have hnb : ¬ p.an.any (fun r => r.toRR.bad filter blocked) = true := by rw [han]; simp
  rw [e, if_neg hnb]
  have han' : p'.an = [] := by
    have := same.an
    rw [show p.answers.an = [] from han] at this
    cases h : p'.an with
    | nil => rfl
    | cons => rw [h] at this; exact this.elim
  obtain ⟨r', rest', hns', sr, srest⟩ : ∃ r' rest', p'.ns = r' :: rest' ∧ SameRec r r' ∧ SameRecs rest rest' := by
    have := same.ns
    rw [show p.answers.ns = r :: rest from hns] at this
    cases h : p'.ns with
    | nil => rw [h] at this; exact this.elim
    | cons a b => rw [h] at this; exact ⟨a, b, rfl, this.1, this.2⟩
  have hall : p'.all = [] ++ r' :: (rest' ++ p'.ar) := by simp [Answers.all, han', hns']
  obtain ⟨t, k1, k2⟩ := replyTtl_exact (inp := inp) cfg uo hd h7' (by rw [han]; simp) hr hall (by simp)
    (by rw [← sr.type, h6]; decide) (fun x hx => (hrep.recs x hx).ok)
    (by intro x hx; rw [List.nil_append, List.mem_singleton] at hx; subst hx; rw [← sr.ttl]; exact hts) (by rw [han]; simp)
  have hl : lifetime [] (r' :: (rest' ++ p'.ar)) = lifetime [] [r] := by
    unfold lifetime
    simp [sr.ttl]
  rw [hl] at k2
  have hallS : SameRecs p.answers.all p'.all := sameRecs_join (sameRecs_join same.an same.ns) same.ar
  have key := denial_exact cfg hs hctl up hask hrep (by
      rw [← same.kind]
      simp only [Msg.answers]
      split <;> simp) han' hns' (sr.type ▸ h6)
    (sameRecs_forall (P := fun r => r.cls = [0, 1]) (fun r r' h hp => h.cls ▸ hp) hallS hcls) t junk
  refine ⟨denial p', ⟨trivial, ?_, ?_, ?_⟩, ?_⟩
  · exact sameRecs_filter (fun r r' h => by rw [h.type]) same.ns
  · exact sameRecs_filter (fun r r' h => by unfold Rec.isAddr; rw [h.type]) same.ar
  · simp only [denial, same.kind]
  · rw [k1, Res.ok_bind, key, Res.ok_bind, k2]

/-- C105.  A reply that says that the server failed is not believed. -/
theorem packet_failed (cfg : Times) (filter : Bool) (blocked : List UInt8 → Bool) (ns : DwStr) (up : Bool) {p : Msg}
    (hp : p.Plain) (h2 : p.rcode = 2) {c spare : List UInt8} (hc : c.length < 65536) (hf : p.From c) (junk : List UInt8) :
    cacheDnsReply cfg filter blocked ns up (c ++ spare) c.length junk = .err := by
  have hpk : rawPeek (c ++ spare) 3 = .ok (p.head.getD 3 0) := by
    obtain ⟨rest, hrest⟩ := hf.front
    unfold rawPeek
    have h4 := hp.head
    have hb : (c ++ spare)[3]? = some (p.head.getD 3 0) := by
      rw [← hrest, Msg.header]
      simp only [List.append_assoc]
      rw [List.getElem?_append_left (by omega), List.getElem?_eq_getElem (by omega), List.getD_eq_getElem?_getD,
        List.getElem?_eq_getElem (by omega)]
      rfl
    rw [hb]
  unfold cacheDnsReply
  rw [question_from hp hf.front spare hc]
  simp only [Res.ok_bind]
  rw [hpk]
  simp only [Res.ok_bind]
  have hrc : (p.head.getD 3 0).toNat % 16 = p.rcode := rfl
  rw [hrc, if_pos h2]

end Incoming
end Dw
