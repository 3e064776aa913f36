import Verif.Mara.ReplyAnswer
/-!
# C71, C72: the replies of the authoritative server, and the order of records

Hypotheses: the records in memory are chained as the server chains them (`Good`, `Chain`, `Parts`): the
answers to the question are `as`, the name servers after them `nss`; `rec i` is the record at place `i`.
-/

namespace Mara
namespace Reply

open Spec
open Dw (Res)

/-- A reply that is sent for the message `m`: the whole message if it fits 512 bytes or the client
takes long replies; else the message without its last `k` optional records, as few as possible; else
nothing but the header, marked as cut short.  (`Small m c`: with its names compressed, `m` is `c`, which
has at most 512 bytes.) -/
inductive Delivered (m : Msg) (long : Bool) : List UInt8 → Prop
  | whole {c} : m.Carried c → c.length ≤ 512 ∨ long = true ∧ c.length < 1024 → Delivered m long c
  | less {c} (k : Nat) : 1 ≤ k → k ≤ m.optional → (m.without k).Carried c → c.length ≤ 512 →
      (∀ j, j < k → ¬∃ c, Small (m.without j) c) → Delivered m long c
  | cut : (∀ j, j ≤ m.optional → ¬∃ c, Small (m.without j) c) → Delivered m long (truncated m.head)

/-- **C71.** With the usual limits (at most 20 records), the reply to a question for which there are
records shows the answers, name servers and addresses it is to show (`Source.Shown`), in a message with
the identification of the question, the question itself, the authoritative flag of the records and the
wish for recursion of the client.  The message is sent whole, or without some of the records that may be
left out, or marked as cut short; a message of 1024 bytes or more before compression is answered by a
server failure.  There is no undefined behaviour. -/
theorem reply_shows {cfg : Cfg} (hcfg : cfg.maxTotal ≤ 20) {h : Heap} {rec : Nat → Rec} (hg : Good h rec) {first : Nat} {p : Node}
    (hf : h[first]? = some p) {qname : List (List UInt8)} (hq : NameOk qname) {t : Nat} (ht : t < 65536) {as nss : List Nat}
    (hc : Chain h (some first) (as ++ nss)) (hp : Parts h t as nss) (id : Nat) (rd force long : Bool) :
    ∃ a b an ns ar d, (source cfg rec h t (p.auth || decide (t ≠ 2 ∧ p.type = 2)) as nss first).Shown a b an ns ar ∧
      udpsuccess cfg h first id (encName qname ++ be16 t) rd force long = .ok d ∧
      (1024 ≤ (msg rec id (force || p.auth) rd qname t an ns ar).bytes.length ∧ d.reply = serverFailure id rd ∨
        (msg rec id (force || p.auth) rd qname t an ns ar).bytes.length < 1024 ∧
        Delivered (msg rec id (force || p.auth) rd qname t an ns ar) long d.reply) := by
  obtain ⟨a, b, an, ns, ar, d, h1, h2, h3⟩ := udpsuccess_total (cfg := cfg) hg hf hq ht hc hp id rd force long
  refine ⟨a, b, an, ns, ar, d, h1, h2, ?_⟩
  rcases h3 with ⟨k1, k2, -⟩ | ⟨k1, -, k3, r, k4, k5⟩
  · exact .inl ⟨k1, k2⟩
  · refine .inr ⟨k1, ?_⟩
    rw [k5]
    cases k4 with
    | whole s1 s2 s3 =>
      refine .whole s1 ?_
      rcases s3 with s3 | s3
      · exact .inl s3.1
      · exact .inr ⟨s3, by simp only [Option.getD_some]; omega⟩
    | less k s1 s2 _ s4 s5 s6 => exact .less k s1 s2 s4 s5 s6
    | cut s1 s2 => exact .cut s2
    | much s1 s2 =>
      exfalso
      have htot := h1.total
      have hns : ns.length = b := by
        have := h1.few; rw [h1.ns]; simp only [source] at this ⊢; simp; omega
      have hopt : (msg rec id (force || p.auth) rd qname t an ns ar).optional = b + ar.length := by
        simp [Msg.optional, msg, hns]
      change a + b + ar.length ≤ cfg.maxTotal at htot
      have ha : a = 0 := by omega
      apply s2 20 (by omega)
      apply question_small (without_sound k3 20)
      have han : an = [] := by rw [h1.an, ha]; simp
      unfold Msg.all Msg.without
      rw [hopt, show b + ar.length - 20 = 0 by omega]
      simp only [msg, han, List.length_map, show ar.length - 20 = 0 by omega]
      rfl

/-- **C71.** No reply is longer than 512 bytes, unless the client is on the list of those that take
long ones. -/
theorem reply_size {cfg : Cfg} (hcfg : cfg.maxTotal ≤ 20) {h : Heap} {rec : Nat → Rec} (hg : Good h rec) {first : Nat} (hf : first < h.length)
    {qname : List (List UInt8)} (hq : NameOk qname) {t : Nat} (ht : t < 65536) (id : Nat) (rd force long : Bool) :
    ∃ d, udpsuccess cfg h first id (encName qname ++ be16 t) rd force long = .ok d ∧
      (d.reply.length ≤ 512 ∨ long = true ∧ d.reply.length < 1024) := by
  obtain ⟨as, nss, hc, hp⟩ := parts_exist hg t hf
  obtain ⟨a, b, an, ns, ar, d, h1, h2, h3⟩ := reply_shows hcfg hg (List.getElem?_eq_getElem hf) hq ht hc hp id rd force long
  refine ⟨d, h2, ?_⟩
  have hfail : (serverFailure id rd).length ≤ 512 := by simp [serverFailure, be16]
  rcases h3 with ⟨-, h3⟩ | ⟨-, h3⟩
  · rw [h3]; exact .inl hfail
  · generalize hm : msg rec id (force || h[first].auth) rd qname t an ns ar = m at h3
    have hhead : m.head.length = 4 := by rw [← hm]; exact (answerHead_ok _ _ _).1
    generalize d.reply = c at h3 ⊢
    cases h3 with
    | whole _ s => exact s
    | less _ _ _ _ s _ => exact .inl s
    | cut _ => left; rw [truncated_length hhead]; omega

/-- **C71.** A reply marked as cut short is only sent when the message without any of its optional
records has more than 512 bytes, or too many labels for the server to compress. -/
theorem truncated_needed {m : Msg} {long : Bool} (hm : m.Sound) (hs : (m.without m.optional).bytes.length ≤ 512)
    (hl : (m.without m.optional).labels ≤ 150) {c : List UInt8} (h : Delivered m long c) :
    ∃ k, k ≤ m.optional ∧ (m.without k).Carried c := by
  cases h with
  | whole s _ => exact ⟨0, by omega, by rw [without_zero]; exact s⟩
  | less k _ s1 s2 _ _ => exact ⟨k, s1, s2⟩
  | cut s => exact absurd (short_small (without_sound hm _) hs hl) (s _ (Nat.le_refl _))

/-- The chain that is left after a reply. -/
theorem parts_after {cfg : Cfg} {rec : Nat → Rec} {t : Nat} {h h' : Heap} {as nss : List Nat} (hg : Good h rec) (hg' : Good h' rec)
    {o : Option Nat} (hc : Chain h o (as ++ nss)) (hp : Parts h t as nss) :
    Parts h' t (if cfg.maxAr = 1 ∧ t ≠ 2 then toEnd as else as) nss := by
  rcases hp with ⟨h2, hn⟩ | ⟨h2, hA, hN⟩
  · exact .inl ⟨h2, hn⟩
  · have same : ∀ i ∈ as ++ nss, ∀ q : Node, h'[i]? = some q → ∃ p : Node, h[i]? = some p ∧ p.type = q.type := by
      intro i hi q hq
      have hp := List.getElem?_eq_getElem (hc.lt i hi)
      exact ⟨_, hp, by rw [(hg.holds i _ hp).type, (hg'.holds i q hq).type]⟩
    refine .inr ⟨h2, ?_, ?_⟩
    · intro i hi q hq
      have hi' : i ∈ as := by
        split at hi
        · cases as with
          | nil => cases hi
          | cons x l =>
            simp only [toEnd, List.mem_append, List.mem_singleton] at hi
            rcases hi with hi | rfl
            · exact List.mem_cons_of_mem x hi
            · simp
        · exact hi
      obtain ⟨p, hp, e⟩ := same i (by simp [hi']) q hq
      rw [← e]; exact hA i hi' p hp
    · intro i hi q hq
      obtain ⟨p, hp, e⟩ := same i (by simp [hi]) q hq
      rw [← e]; exact hN i hi p hp

/-- A reply that carries records is not a server failure. -/
theorem delivered_not_failure {m : Msg} {long : Bool} {c : List UInt8} {id : Nat} {aa rd : Bool} (hm : m.head = answerHead id aa rd)
    (h : Delivered m long c) : c ≠ serverFailure id rd := by
  have car : ∀ {m : Msg}, m.head = answerHead id aa rd → m.Carried c → c ≠ serverFailure id rd := by
    rintro m hm ⟨p', h1, h2, -⟩ rfl
    obtain ⟨x, hx⟩ := h2.front
    have e : p'.head = answerHead id aa rd := by rw [← h1.head, hm]
    unfold Msg.header at hx
    rw [e] at hx
    unfold answerHead serverFailure be16 at hx
    simp only [List.cons_append, List.nil_append, List.cons.injEq] at hx
    exact absurd hx.2.2.2.1 (by decide)
  cases h with
  | whole s _ => exact car hm s
  | less k _ _ s _ _ =>
    exact car (m := m.without k) hm s
  | cut _ =>
    rw [hm]
    unfold answerHead serverFailure be16 truncated
    intro h
    simp only [List.cons_append, List.nil_append, List.cons.injEq] at h
    exact absurd h.2.2.2.1 (by decide)

/-- **C72.** Each reply moves the first of the answers behind the others (with one address for each
host, which is the usual setting, and for questions other than those for name servers); nothing else
about the records changes, none is lost.  A server failure may leave the order as it is. -/
theorem reply_turns {cfg : Cfg} {h : Heap} {rec : Nat → Rec} (hg : Good h rec) {first : Nat}
    {qname : List (List UInt8)} (hq : NameOk qname) {t : Nat} (ht : t < 65536) {as nss : List Nat}
    (hc : Chain h (some first) (as ++ nss)) (hp : Parts h t as nss) (id : Nat) (rd force long : Bool) :
    ∃ d, udpsuccess cfg h first id (encName qname ++ be16 t) rd force long = .ok d ∧ Good d.heap rec ∧ d.heap.length = h.length ∧
      (Chain d.heap (some d.head) ((if cfg.maxAr = 1 ∧ t ≠ 2 then toEnd as else as) ++ nss) ∨
        d.reply = serverFailure id rd ∧ d.heap = h ∧ d.head = first) := by
  obtain ⟨p, hf⟩ : ∃ p : Node, h[first]? = some p := by
    generalize as ++ nss = L at hc
    cases hc with
    | cons hp' _ => exact ⟨_, hp'⟩
  obtain ⟨a, b, an, ns, ar, d, h1, h2, h3⟩ := udpsuccess_total (cfg := cfg) hg hf hq ht hc hp id rd force long
  obtain ⟨hg', hc'⟩ := after_good (cfg := cfg) hg hc hp
  have hlen := after_length cfg t h as nss first
  refine ⟨d, h2, ?_⟩
  have fin : (d.heap, d.head) = after cfg t h as nss first → Good d.heap rec ∧ d.heap.length = h.length ∧
      (Chain d.heap (some d.head) ((if cfg.maxAr = 1 ∧ t ≠ 2 then toEnd as else as) ++ nss) ∨
        d.reply = serverFailure id rd ∧ d.heap = h ∧ d.head = first) := by
    intro e
    have e1 : d.heap = (after cfg t h as nss first).1 := by rw [← e]
    have e2 : d.head = (after cfg t h as nss first).2 := by rw [← e]
    rw [e1, e2]
    exact ⟨hg', hlen, .inl hc'⟩
  rcases h3 with ⟨-, k2, k3 | k3⟩ | ⟨-, k2, -⟩
  · obtain ⟨e1, e2⟩ := Prod.mk.inj k3
    rw [e1, e2]
    exact ⟨hg, rfl, .inr ⟨k2, rfl, rfl⟩⟩
  · exact fin k3
  · exact fin k2

/-- A question: its identification, the wish for recursion, and whether the client takes long replies. -/
structure Ask where
  id : Nat
  rd : Bool
  long : Bool

/-- The same question asked again and again: the replies and the records afterwards. -/
def serve (cfg : Cfg) (query : List UInt8) (force : Bool) : List Ask → Heap → Nat → Res (List (List UInt8) × Heap × Nat)
  | [], h, first => .ok ([], h, first)
  | q :: qs, h, first => do
    let d ← udpsuccess cfg h first q.id query q.rd force q.long
    let (rs, h', k) ← serve cfg query force qs d.heap d.head
    .ok (d.reply :: rs, h', k)

/-- The list turned `n` times. -/
def turns : Nat → List Nat → List Nat
  | 0, l => l
  | n + 1, l => turns n (toEnd l)

theorem turns_perm : ∀ (n : Nat) (l : List Nat), (turns n l).Perm l
  | 0, l => List.Perm.refl l
  | n + 1, l => by
    refine (turns_perm n (toEnd l)).trans ?_
    cases l with
    | nil => exact List.Perm.refl _
    | cons x l => exact List.perm_append_singleton x l

theorem turns_get : ∀ (n : Nat) (l : List Nat) (i : Nat), 0 < l.length → (turns n l)[i % l.length]? = l[(n + i) % l.length]?
  | 0, l, i, _ => by rw [Nat.zero_add]; rfl
  | n + 1, [], i, hl => by simp at hl
  | n + 1, x :: l, i, _ => by
    have hlen : (toEnd (x :: l)).length = (x :: l).length := by simp [toEnd]
    have ih := turns_get n (toEnd (x :: l)) i (by simp [toEnd])
    rw [hlen] at ih
    show (turns n (toEnd (x :: l)))[i % (x :: l).length]? = _
    rw [ih]
    have key : ∀ k, (toEnd (x :: l))[k % (x :: l).length]? = (x :: l)[(k + 1) % (x :: l).length]? := by
      intro k
      have hk : k % (l.length + 1) < l.length + 1 := Nat.mod_lt _ (by omega)
      unfold toEnd
      simp only [List.length_cons]
      by_cases hlast : k % (l.length + 1) = l.length
      · rw [hlast, List.getElem?_append_right (by omega)]
        have : (k + 1) % (l.length + 1) = 0 := by rw [Nat.add_mod, hlast]; by_cases h0 : l.length = 0
                                                  · rw [h0]
                                                  · rw [Nat.mod_eq_of_lt (by omega : 1 < l.length + 1), Nat.mod_self]
        rw [this]; simp
      · rw [List.getElem?_append_left (by omega)]
        have : (k + 1) % (l.length + 1) = k % (l.length + 1) + 1 := by
          rw [Nat.add_mod, Nat.mod_eq_of_lt (by omega : 1 < l.length + 1), Nat.mod_eq_of_lt (by omega)]
        rw [this, List.getElem?_cons_succ]
    rw [key]
    congr 2
    omega

/-- **C72.** However often a question is asked: every reply is sent, the records stay the same, and, as
long as no reply is a server failure, the answers have been turned once for each question.  (Missing for the
whole claim: what aliases lead to; there it is false, see `alias_loses_records`.) -/
theorem round_robin_partial {cfg : Cfg} (hone : cfg.maxAr = 1) {rec : Nat → Rec}
    {qname : List (List UInt8)} (hq : NameOk qname) {t : Nat} (ht : t < 65536) (h2 : t ≠ 2) (force : Bool) {nss : List Nat} :
    ∀ (qs : List Ask) (h : Heap) (first : Nat) (as : List Nat), Good h rec → Chain h (some first) (as ++ nss) → Parts h t as nss →
    ∃ rs h' k n, serve cfg (encName qname ++ be16 t) force qs h first = .ok (rs, h', k) ∧ rs.length = qs.length ∧
      Good h' rec ∧ h'.length = h.length ∧ Chain h' (some k) (turns n as ++ nss) ∧ Parts h' t (turns n as) nss ∧ n ≤ qs.length ∧
      ((∀ x ∈ qs.zip rs, x.2 ≠ serverFailure x.1.id x.1.rd) → n = qs.length)
  | [], h, first, as, hg, hc, hp => ⟨[], h, first, 0, rfl, rfl, hg, rfl, hc, hp, by simp, by simp⟩
  | q :: qs, h, first, as, hg, hc, hp => by
    obtain ⟨d, d1, d2, d3, d4⟩ := reply_turns (cfg := cfg) hg hq ht hc hp q.id q.rd force q.long
    rcases d4 with d4 | ⟨d5, d6, d7⟩
    · rw [if_pos ⟨hone, h2⟩] at d4
      have hp' := parts_after (cfg := cfg) hg d2 hc hp
      rw [if_pos ⟨hone, h2⟩] at hp'
      obtain ⟨rs, h', k, n, r1, r2, r3, r4, r5, r6, r7, r8⟩ := round_robin_partial hone hq ht h2 force qs d.heap d.head (toEnd as) d2 d4 hp'
      refine ⟨d.reply :: rs, h', k, n + 1, ?_, by simp [r2], r3, by omega, r5, r6, by simp; omega, ?_⟩
      · unfold serve
        rw [d1, Res.ok_bind, r1, Res.ok_bind]
      · intro hx
        have := r8 (fun x hx' => hx x (by simp [hx']))
        simp; omega
    · rw [← d6, ← d7] at hc
      rw [← d6] at hp
      obtain ⟨rs, h', k, n, r1, r2, r3, r4, r5, r6, r7, r8⟩ := round_robin_partial hone hq ht h2 force qs d.heap d.head as d2 hc hp
      refine ⟨d.reply :: rs, h', k, n, ?_, by simp [r2], r3, by omega, r5, r6, by simp; omega, ?_⟩
      · unfold serve
        rw [d1, Res.ok_bind, r1, Res.ok_bind]
      · intro hx
        exact absurd d5 (hx (q, d.reply) (by simp))

/-- **C72.** So every answer gets its turn: the reply after `n` replies begins with answer number `n`,
counted round and round. -/
theorem everyone_first {cfg : Cfg} (hcfg : cfg.maxTotal ≤ 20) (hone : cfg.maxAr = 1) (hch : 0 < cfg.maxChain) (htot : 0 < cfg.maxTotal) {rec : Nat → Rec}
    {qname : List (List UInt8)} (hq : NameOk qname) {t : Nat} (ht : t < 65536) (h2 : t ≠ 2) (force : Bool) {as nss : List Nat} (has : as ≠ [])
    (qs : List Ask) {h : Heap} {first : Nat} (hg : Good h rec) (hc : Chain h (some first) (as ++ nss)) (hp : Parts h t as nss)
    {rs : List (List UInt8)} {h' : Heap} {k : Nat} (hs : serve cfg (encName qname ++ be16 t) force qs h first = .ok (rs, h', k))
    (hok : ∀ x ∈ qs.zip rs, x.2 ≠ serverFailure x.1.id x.1.rd) (q : Ask) :
    ∃ d aa an ns ar, udpsuccess cfg h' k q.id (encName qname ++ be16 t) q.rd force q.long = .ok d ∧
      an.head? = as[qs.length % as.length]? ∧
      (d.reply = serverFailure q.id q.rd ∨ Delivered (msg rec q.id aa q.rd qname t an ns ar) q.long d.reply) := by
  obtain ⟨rs', h'', k', n, r1, r2, r3, r4, r5, r6, r7, r8⟩ := round_robin_partial hone hq ht h2 force qs h first as hg hc hp
  rw [hs] at r1
  injection r1 with r1
  cases r1
  have hn := r8 hok
  subst hn
  obtain ⟨p, hf⟩ : ∃ p : Node, h'[k]? = some p := by
    generalize turns qs.length as ++ nss = L at r5
    cases r5 with
    | cons hp' _ => exact ⟨_, hp'⟩
  obtain ⟨a, b, an, ns, ar, d, s1, s2, s3⟩ := reply_shows hcfg r3 hf hq ht r5 r6 q.id q.rd force q.long
  refine ⟨d, force || p.auth, an, ns, ar, s2, ?_, ?_⟩
  · have hlen : 0 < as.length := List.length_pos_iff.2 has
    have hl : (turns qs.length as).length = as.length := (turns_perm _ _).length_eq
    have hget := turns_get qs.length as 0 hlen
    rw [Nat.zero_mod, Nat.add_zero] at hget
    rw [← hget, s1.an]
    show ((List.take a (turns qs.length as)).flatMap _).head? = _
    have ha : 0 < a := by
      rcases s1.answers with h | h | h
      · change a = (turns qs.length as).length at h; omega
      · change a = cfg.maxChain at h; omega
      · obtain ⟨hb, h⟩ := h
        change a + ar.length = cfg.maxTotal at h
        by_cases h0 : a = 0
        · exfalso
          subst h0
          subst hb
          cases ar with
          | nil => simp at h; omega
          | cons j ar =>
            obtain ⟨i, hi, -⟩ := s1.from_ j (by simp)
            simp at hi
        · omega
    match ht' : turns qs.length as, hl with
    | x :: l, _ =>
      match a, ha with
      | a + 1, _ => simp
    | [], hl => simp at hl; omega
  · rcases s3 with ⟨-, s3⟩ | ⟨-, s3⟩
    · exact .inl s3
    · exact .inr s3

end Reply
end Mara
