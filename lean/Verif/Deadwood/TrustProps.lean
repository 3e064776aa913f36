import Verif.Deadwood.TrustMsg
import Verif.Deadwood.IncomingExamples
/-!
# Properties: who is believed, over any sequence of events
-/

namespace Dw
namespace Trust
open DwStr Spec Dissect Incoming
open Acl (rd wr)

/-! ### C108: one packet and several clients -/

theorem salvage_whole {a : List UInt8} {count : Nat} {hack : Bool} {f n : UInt8} (h2 : rd a 2 = .ok f) (h7 : rd a 7 = .ok n)
    (hf : f &&& 2 = 0) : Remote.salvage a count hack = .ok (some (a, count)) := by
  unfold Remote.salvage
  rw [h2, Res.ok_bind, h7, Res.ok_bind, if_neg (by simp [hf])]

theorem find_put (c : List Entry) (k v : List UInt8) : put (put c k v) k v = put c k v := by
  by_cases h : c.any fun e => e.key == k && e.fixed
  · have : put c k v = c := by unfold put; rw [if_pos h]
    rw [this, this]
  · have e : put c k v = ⟨k, v, false⟩ :: c.filter fun e => e.key != k := by unfold put; rw [if_neg h]
    rw [e]
    unfold put
    rw [if_neg]
    · simp [List.filter_filter]
    · simp only [List.any_cons, List.any_filter, Bool.or_eq_true, not_or]
      refine ⟨by simp, ?_⟩
      simp only [List.any_eq_true, not_exists, Bool.and_eq_true, bne_iff_ne, beq_iff_eq, not_and]
      intro x _ h1 h2
      exact absurd h2 h1

/-- C108.  An answer that is taken is taken once: with any number of clients waiting, what the cache and the requests become is the
same. -/
theorem clients_answer {cfg : Cfg} {s : State} {b : Nat} {sl : Slot} {from_ a l junk : List UInt8} {count : Nat} {f m : UInt8} {p : Put}
    (hb : s.slots b = some sl) (hn : sl.ns = some l) (h2 : rd a 2 = .ok f) (h7 : rd a 7 = .ok m) (hf : f &&& 2 = 0)
    (hst : cacheDnsReply cfg.times cfg.filter cfg.blocked (Remote.dstr l) sl.up a count junk = .ok (.step ⟨[p], none, none⟩))
    (n : Nat) (ws : List (Wire × Int)) :
    ∃ s', passes cfg b from_ count junk (n + 1) s a ws = .ok s' ∧ s'.cache = put s.cache p.key p.value ∧ s'.slots = s.slots := by
  have one : ∀ (s : State) (w : Wire × Int), s.slots b = some sl → pass cfg s b sl from_ a count w.2 w.1 junk =
      .ok (⟨put s.cache p.key p.value, s.slots, (from_, a.take count) :: s.heard, l :: s.judged⟩, a, true) := by
    intro s w _
    unfold pass
    rw [salvage_whole h2 h7 hf, Res.ok_bind]
    dsimp only
    rw [h2, Res.ok_bind, if_neg (by simp [hf]), hn]
    dsimp only
    rw [hst]
    rfl
  have many : ∀ (n : Nat) (s : State) (ws : List (Wire × Int)), s.slots b = some sl →
      ∃ s', passes cfg b from_ count junk n s a ws = .ok s' ∧
        s'.cache = (if n = 0 then s.cache else put s.cache p.key p.value) ∧ s'.slots = s.slots := by
    intro n
    induction n with
    | zero => intro s ws _; exact ⟨s, rfl, rfl, rfl⟩
    | succ n ih =>
      intro s ws hb
      unfold passes
      rw [hb]
      dsimp only
      rw [one s _ hb, Res.ok_bind]
      dsimp only
      rw [if_pos rfl]
      obtain ⟨s', e1, e2, e3⟩ := ih ⟨put s.cache p.key p.value, s.slots, (from_, a.take count) :: s.heard, l :: s.judged⟩ ws.tail hb
      refine ⟨s', e1, ?_, e3⟩
      rw [e2]
      dsimp only
      rw [if_neg (show n + 1 ≠ 0 by omega)]
      split
      · rfl
      · exact find_put _ _ _
  obtain ⟨s', e1, e2, e3⟩ := many (n + 1) s ws hb
  exact ⟨s', e1, by rw [e2, if_neg (by omega)], e3⟩

/-- A reply that refers to servers of zones which those asked may not delegate: nobody is left to ask. -/
theorem referral_refused (cfg : Times) {ns : DwStr} {bs : List (List UInt8)} (hs : Servers ns bs)
    (hctl : ∀ l ∈ bs, ∀ x ∈ l, 32 ≤ x.toNat)
    {query inp : DwStr} {qs : List (List UInt8)} {qtype : Nat} (hq : Asks query qs qtype) {p : Answers} (hr : Reply inp p)
    (hk : p.kind ≠ 2) (han : p.an = []) {r : Rec} {rest : List Rec} (hns : p.ns = r :: rest) (h2 : r.type = 2)
    (few : p.ns.length ≤ 15)
    (hno : ∀ x ∈ p.ar, ¬ (Alike qs x.name ∧ x.type = qtype))
    (hnone : ∀ x ∈ p.ns, x.type = 2 ∨ x.type = 6 → ¬ MayDelegate bs qs x.name) (ttl : Int) (junk : List UInt8) :
    ∃ t, cacheReply cfg ns false query inp ttl junk = .ok ⟨[⟨encName [] ++ be16 65395, [0, 16], t⟩], some [0, 16], none⟩ := by
  have hc := cacheReply_zone' cfg hs hctl false query inp ttl junk
  rcases dissect_ns hr hq (nameStr_zone hs.name junk) han hns h2 junk with ⟨pre, x, post, e1, e2, -⟩ |
      ⟨-, look, nsM, arM, T, hv, m1, m2, m3, m4⟩
  · exact absurd e2 (hno x (by rw [e1]; simp))
  rw [if_neg hk] at m4
  cases hz : longestOf (candidates bs qs (tag 15 p.ns)) none with
  | some z =>
    obtain ⟨r', hr', hn, ht, hmd⟩ := candidate_few few hz
    subst hn
    exact absurd hmd (hnone r' hr' ht)
  | none =>
    have hcand := (longestOf_none _ _ hz).1
    have hno' : ∀ x ∈ tag 15 p.ns, ¬ Followed bs qs x := by
      intro x hx hf
      have : x.1 ∈ candidates bs qs (tag 15 p.ns) := by
        unfold candidates
        exact List.mem_map.2 ⟨x, List.mem_filter.2 ⟨hx, decide_eq_true ⟨.inl hf.2.2, fun _ => hf.2.1⟩⟩, rfl⟩
      rw [hcand] at this
      simp at this
    have hT : ∀ t, t ∉ T := fun t ht => by
      obtain ⟨x, hx, hf, -⟩ := (m3 t).1 ht
      exact hno' x hx hf
    have hg : glueOf T p.ar = [] := by
      unfold glueOf
      rw [List.filter_eq_nil_iff]
      intro r _ h
      simp only [Bool.and_eq_true, decide_eq_true_eq] at h
      obtain ⟨t, ht, -⟩ := h.2
      exact hT t ht
    have hbare : bareOf bs qs p.ar (tag 15 p.ns) = [] := by
      unfold bareOf
      rw [List.map_eq_nil_iff, List.filter_eq_nil_iff]
      intro x hx h
      exact hno' x hx (of_decide_eq_true h).1
    obtain ⟨o, e1, e2, e3⟩ := (nsRefer_exact hr hv (an := []) m1 m2 (by rw [hg]; simp) junk [] (by rw [hg, hbare]; rfl)).1 (by simp)
    rw [m4, e1, Res.ok_bind] at hc
    rw [hz] at e3
    have e3 : o.contents = [0, 16] := e3
    refine ⟨referTtl cfg 0 (keepTtl cfg ttl), hc.trans ?_⟩
    rw [finish_refer' cfg query (keepTtl cfg ttl) junk e2 (z := []) (x := [16]) (y := [0]) ⟨by simp [LabelsOk], by decide⟩ (by simp) e3 e3, e3]
    rfl

/-- The list that is left when nobody is passes for the list of the servers of the root. -/
theorem nobody_root : Servers (Remote.dstr [0, 16]) [] :=
  ⟨Remote.dstr_usable (by decide), ⟨by simp [LabelsOk], by decide⟩, ⟨[16], Remote.dstr_contents _⟩⟩

/-- Finding (C108).  A referral that is taken for the first client is not for the second: all its records are for one zone, whose servers
it makes those to ask; judged again, as a reply of these servers, it leaves nobody to ask. -/
theorem referral_spent (cfg : Times) {z : List (List UInt8)} (hz : Spec.NameOk z) (hctl : ∀ l ∈ z, ∀ x ∈ l, 32 ≤ x.toNat)
    {query inp : DwStr} {qs : List (List UInt8)} {qtype : Nat} (hq : Asks query qs qtype) {p : Answers} (hr : Reply inp p)
    (hk : p.kind ≠ 2) (han : p.an = []) {r : Rec} {rest : List Rec} (hns : p.ns = r :: rest) (h2 : r.type = 2)
    (few : p.ns.length ≤ 15) (hno : ∀ x ∈ p.ar, ¬ (Alike qs x.name ∧ x.type = qtype))
    (hone : ∀ x ∈ p.ns, SameName z x.name) {l x : List UInt8} (hl : l = encName z ++ x) (hlim : l.length < 134217727)
    (ttl : Int) (junk : List UInt8) :
    ∃ t, cacheReply cfg (Remote.dstr l) false query inp ttl junk =
      .ok ⟨[⟨encName [] ++ be16 65395, [0, 16], t⟩], some [0, 16], none⟩ :=
  referral_refused cfg ⟨Remote.dstr_usable hlim, hz, ⟨x, by rw [Remote.dstr_contents, hl]⟩⟩ hctl hq hr hk han hns h2 few hno
    (fun y hy _ h => h.1.2 (hone y hy)) ttl junk

/-- Finding (C108).  A referral that those asked may not make is refused for the first client and believed for the second: after the first
the list is empty, and the empty list passes for that of the root, whose servers may delegate any zone. -/
theorem refused_then_believed (cfg : Times) {ns : DwStr} {bs : List (List UInt8)} (hs : Servers ns bs)
    (hctl : ∀ l ∈ bs, ∀ x ∈ l, 32 ≤ x.toNat)
    {query inp : DwStr} {qs : List (List UInt8)} {qtype : Nat} (hq : Asks query qs qtype) {p : Answers} (hr : Reply inp p)
    (hk : p.kind ≠ 2) (han : p.an = []) {r : Rec} {rest : List Rec} (hns : p.ns = r :: rest) (h2 : r.type = 2)
    (few : p.ns.length ≤ 15) (hno : ∀ x ∈ p.ar, ¬ (Alike qs x.name ∧ x.type = qtype))
    (hnone : ∀ x ∈ p.ns, x.type = 2 ∨ x.type = 6 → ¬ MayDelegate bs qs x.name)
    (hsome : delegations [] qs p.ns ≠ []) (hprint : ∀ x ∈ p.ns, ∀ l ∈ x.name, ∀ y ∈ l, 32 ≤ y.toNat)
    (haddr : ∀ x ∈ addresses [] qs p.ns p.ar, (x.type = 1 → x.rdata.length = 4) ∧ (x.type = 28 → x.rdata.length = 16))
    {es : List (List UInt8)}
    (hes : es = (addresses [] qs p.ns p.ar).map glueEntry ++ (nameless [] qs p.ns p.ar).map nameEntry)
    (h31 : es.length ≤ 31) (ttl : Int) (junk : List UInt8) :
    ∃ l t z t', cacheReply cfg ns false query inp ttl junk = .ok ⟨[⟨encName [] ++ be16 65395, l, t⟩], some l, none⟩ ∧
      ¬ MayDelegate bs qs z ∧
      cacheReply cfg (Remote.dstr l) false query inp ttl junk =
        .ok ⟨[⟨encName z ++ be16 65395, referral (encName z) es, t'⟩], some (referral (encName z) es), none⟩ := by
  obtain ⟨t, e⟩ := referral_refused cfg hs hctl hq hr hk han hns h2 few hno hnone ttl junk
  obtain ⟨z, t', -, ⟨r', hr', hn, ht⟩, -, e'⟩ := referral_exact cfg nobody_root (by simp) hq hr hk han hns h2 few hno hsome haddr hes h31 ttl junk
  refine ⟨[0, 16], t, z, t', e, hn ▸ hnone r' hr' ht, ?_⟩
  rcases e' with e' | ⟨⟨l, hl, x, hx, hlt⟩, -⟩
  · exact e'
  · rw [← hn] at hl
    exact absurd (hprint r' hr' l hl x hx) (by omega)

/-! ### C109: the chain of trust -/

/-- C109.  Over any sequence of events, provided that all packets taken are messages that can be read and that none was judged while nobody
was left to ask: whatever the cache has as the servers of a zone is configured, or servers that may speak for a zone above said so; whatever
it has as the aliases of a name or as an answer was said by servers that may speak for the name, or is made of such aliases and such an
answer. -/
theorem trust_chain_partial {cfg : Cfg} {conf : Conf} (hconf : ConfOk conf)
    (hgt : cfg.glueType < 65536 ∧ cfg.glueType ≠ 65394 ∧ cfg.glueType ≠ 65395) {junk : List UInt8} {evs : List Ev} (hev : ∀ e ∈ evs, e.Ok)
    {s : State} (h : run cfg junk (State.init conf) evs = .ok s) (hmsg : ∀ x ∈ s.heard, IsMsg x.2) (hjudge : [0, 16] ∉ s.judged)
    {z : List (List UInt8)} (hz : Spec.NameOk z) {t : Nat} (ht : t < 65536) {value : List UInt8}
    (hg : get s.cache (encName z ++ be16 t) = some value) :
    (t = 65395 → (z = [] ∧ value = [0, 16]) ∨ Trusted conf s.heard z value) ∧
    (t = 65394 → Aliased conf s.heard z value) ∧
    (t ≠ 65394 → t ≠ 65395 → Answered conf s.heard (Joins cfg) z t value) := by
  have I := run_inv (B := msgBelief cfg conf) hgt hev (init_inv hconf fun h => .configured h) h hmsg hjudge
  obtain ⟨e, he, hk, rfl⟩ := get_mem hg
  obtain ⟨z', t', h1, h2, h3, h4, h5, h6⟩ := I.cache e he
  obtain ⟨rfl, rfl⟩ := key_inj h1 hz h2 ht (h3.symm.trans hk)
  exact ⟨fun h => (h4 h).imp id Judge.trusted, h5, fun a b => h6 b a⟩

/-- C109.  Whoever is asked may speak for the name: the server a question has been sent to was taken from a list of servers that may speak
for a zone the name is in (unless nobody is left to ask). -/
theorem asked_chain_partial {cfg : Cfg} {conf : Conf} (hconf : ConfOk conf)
    (hgt : cfg.glueType < 65536 ∧ cfg.glueType ≠ 65394 ∧ cfg.glueType ≠ 65395) {junk : List UInt8} {evs : List Ev} (hev : ∀ e ∈ evs, e.Ok)
    {s : State} (h : run cfg junk (State.init conf) evs = .ok s) (hmsg : ∀ x ∈ s.heard, IsMsg x.2) (hjudge : [0, 16] ∉ s.judged)
    {b : Nat} {sl : Slot} (hb : s.slots b = some sl) {k : Sock} (hk : sl.sock = some k)
    {q : List (List UInt8)} (hq : Spec.NameOk q) {t : Nat} (ht : t < 65536) (hsq : sl.query = encName q ++ be16 t)
    (hleft : sl.ns ≠ some [0, 16]) :
    ∃ zone, Trusted conf s.heard zone k.list ∧ Below q zone := by
  have I := run_inv (B := msgBelief cfg conf) hgt hev (init_inv hconf fun h => .configured h) h hmsg hjudge
  have hsl := I.slots b sl hb
  cases hn : sl.ns with
  | none => rw [hsl.has hn] at hk; cases hk
  | some l =>
    rcases hsl.sock k hk q t ⟨hq, ht, hsq⟩ l hn with e | ⟨z, z0, -, h2, h3, h4⟩
    · rw [hn, e] at hleft; exact absurd rfl hleft
    · exact ⟨z0, h3, below_trans h2 h4⟩

end Trust
end Dw
