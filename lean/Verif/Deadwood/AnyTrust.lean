import Verif.Deadwood.TrustMsg
import Verif.Deadwood.AnyPacket
import Verif.Spec.Word
/-!
# Lemmas: what may be believed whatever the packets are
-/

namespace Dw
namespace Trust
open DwStr Spec Dissect Incoming
open Acl (rd wr)

/-- Written out, the packet says at its end that it has at most fifteen authority records. -/
def FewNs (c : List UInt8) : Prop :=
  ∀ (spare junk : List UInt8) (x : UInt8) (q : List UInt8) (answer d : DwStr), 3 ≤ spare.length →
    Remote.question (c ++ spare) c.length = .ok q → (c ++ spare)[3]? = some x → x.toNat % 16 ≠ 2 →
    packetToCache (hack (c ++ spare) c.length) (if x.toNat % 16 = 3 then 1 else 0) junk = .ok answer →
    decompress (Remote.dstr q) answer junk = .ok d →
    ∃ front n ar kind, d.contents = front ++ be16 n ++ be16 ar ++ [kind] ∧ n ≤ 15

/-- What is needed of a packet: the name asked for is not longer than a name may be, and there are not many authority records. -/
def IsRead (c : List UInt8) : Prop :=
  (∀ n t, LabelsOk n → AsksFor c n t → (encName n).length ≤ 255) ∧ FewNs c

theorem question_drop (packet : List UInt8) (len : Nat) (hlen : len ≤ packet.length) (hmax : len < 134217728) {q : List UInt8}
    (h : Remote.question packet len = .ok q) :
    ∃ ls t0 t1 rest, Remote.Legal ls t0 t1 ∧ packet.drop 12 = encName ls ++ t0 :: t1 :: rest ∧
      12 + (encName ls).length + 2 ≤ len ∧ q = encName (Remote.lowerLabels ls) ++ [t0, t1] := by
  rcases getDnameType_exact packet 12 len hlen hmax with ⟨ls, t0, t1, rest, g1, g2, g3, g4⟩ | ⟨g1, -⟩
  · obtain ⟨-, hok, hc, h256, hin⟩ := g1
    have hl : Remote.Legal ls t0 t1 := ⟨hok, hc, h256, g3⟩
    rw [Remote.question_of packet len hl g4] at h
    exact ⟨ls, t0, t1, rest, hl, g2, hin, (Res.ok.inj h).symm⟩
  · unfold Remote.question at h
    rw [g1] at h
    cases h

/-- What a packet that was taken went through. -/
theorem cacheDnsReply_step {cfg : Times} {filter : Bool} {blocked : List UInt8 → Bool} {ns : DwStr} {up : Bool} {packet : List UInt8}
    {count : Nat} {junk : List UInt8} {st : Step}
    (h : cacheDnsReply cfg filter blocked ns up packet count junk = .ok (.step st)) :
    ∃ q x answer d ttl, Remote.question packet count = .ok q ∧ packet[3]? = some x ∧ x.toNat % 16 ≠ 2 ∧
      packetToCache (hack packet count) (if x.toNat % 16 = 3 then 1 else 0) junk = .ok answer ∧
      decompress (Remote.dstr q) answer junk = .ok d ∧ cacheReply cfg ns up (Remote.dstr q) d ttl junk = .ok st := by
  unfold cacheDnsReply at h
  cases e1 : Remote.question packet count with
  | ub => rw [e1] at h; cases h
  | err =>
    rw [e1] at h
    simp only [Res.ok_bind] at h
    cases e2 : rawPeek packet 3 with
    | ub => rw [e2] at h; cases h
    | err => rw [e2] at h; cases h
    | ok x =>
    rw [e2, Res.ok_bind] at h
    split at h
    · cases h
    · revert h
      generalize packetToCache _ _ _ = z
      intro h
      cases z <;> cases h
  | ok q =>
    rw [e1] at h
    simp only [Res.ok_bind] at h
    cases e2 : rawPeek packet 3 with
    | ub => rw [e2] at h; cases h
    | err => rw [e2] at h; cases h
    | ok x =>
    rw [e2, Res.ok_bind] at h
    have hx : packet[3]? = some x := by
      unfold rawPeek at e2
      split at e2
      · cases e2; assumption
      · cases e2
    split at h
    · cases h
    rename_i hne
    cases e3 : packetToCache (hack packet count) (if x.toNat % 16 = 3 then 1 else 0) junk with
    | ub => rw [e3] at h; cases h
    | err => rw [e3] at h; cases h
    | ok answer =>
    rw [e3, Res.ok_bind] at h
    cases e4 : decompress (Remote.dstr q) answer junk with
    | ub => rw [e4] at h; cases h
    | err => rw [e4] at h; cases h
    | ok d =>
    rw [e4, Res.ok_bind] at h
    cases e5 : hasBadIp filter blocked d junk with
    | ub => rw [e5] at h; cases h
    | err => rw [e5] at h; cases h
    | ok bad =>
    rw [e5, Res.ok_bind] at h
    split at h
    · cases h
    cases e6 : replyTtl cfg answer d with
    | ub => rw [e6] at h; cases h
    | err => rw [e6] at h; cases h
    | ok ttl =>
    rw [e6, Res.ok_bind] at h
    cases e7 : cacheReply cfg ns up (Remote.dstr q) d ttl junk with
    | ub => rw [e7] at h; cases h
    | err => rw [e7] at h; cases h
    | ok st' =>
    rw [e7, Res.ok_bind] at h
    cases h
    exact ⟨q, x, answer, d, ttl, rfl, hx, hne, e3, e4, e7⟩

theorem lowerLabels_lowered (ls : List (List UInt8)) : Remote.lowerLabels ls = lowered ls := rfl

theorem be16_bytes (t0 t1 : UInt8) : be16 (t0.toNat * 256 + t1.toNat) = [t0, t1] := by
  have b0 := t0.toNat_lt
  have b1 := t1.toNat_lt
  unfold be16
  rw [show (t0.toNat * 256 + t1.toNat) / 256 = t0.toNat by omega]
  congr 1
  · exact UInt8.ofNat_toNat
  · congr 1
    apply UInt8.toNat_inj.1
    rw [UInt8.toNat_ofNat']
    omega

/-- What a packet that was taken asks for. -/
theorem Came.read {cfg : Cfg} {c spare a0 query l junk : List UInt8} {count : Nat} {up : Bool} {st : Step}
    (h : Came cfg c spare a0 count query l up junk st) :
    ∃ ls t0 t1, Remote.Legal ls t0 t1 ∧ AsksFor c ls (t0.toNat * 256 + t1.toNat) ∧
      query = encName (lowered ls) ++ be16 (t0.toNat * 256 + t1.toNat) ∧
      Remote.question (c ++ spare) c.length = .ok query := by
  obtain ⟨q, k, answer, d, ttl, e1, -, -, -, -, -⟩ := cacheDnsReply_step h.step
  have hlim := h.lim
  have hmax := h.max
  obtain ⟨ls, t0, t1, rest, g1, g2, g3, g4⟩ := question_drop (c ++ spare) c.length (by simp) (by omega) e1
  obtain ⟨ls', t0', t1', rest', f1, f2, f3, f4⟩ := question_drop a0 count h.len (by omega) h.question
  rw [h.rest, f2] at g2
  have := SR.encName_inj f1.ok g1.ok g2
  subst this
  have := List.append_cancel_left g2
  obtain ⟨rfl, rfl, rfl⟩ : t0' = t0 ∧ t1' = t1 ∧ rest' = rest := by
    simpa using this
  refine ⟨ls', t0', t1', g1, ?_, ?_, ?_⟩
  · refine ⟨c.take 12, (c.drop 12).drop ((encName ls').length + 2), by simp; omega, ?_⟩
    have hcd : (c ++ spare).drop 12 = c.drop 12 ++ spare := by
      rw [List.drop_append_of_le_length (by omega)]
    have hd : c.drop 12 ++ spare = (encName ls' ++ [t0', t1']) ++ rest' := by
      rw [← hcd, h.rest, f2]; simp
    have hpre : (c.drop 12).take ((encName ls').length + 2) = encName ls' ++ [t0', t1'] := by
      have := congrArg (List.take ((encName ls').length + 2)) hd
      rw [List.take_append_of_le_length (by simp; omega)] at this
      rw [this, List.take_append_of_le_length (by simp)]
      exact List.take_of_length_le (by simp)
    conv => lhs; rw [← List.take_append_drop 12 c, ← List.take_append_drop ((encName ls').length + 2) (c.drop 12), hpre]
    rw [be16_bytes]
    simp
  · rw [f4, be16_bytes]; rfl
  · rw [e1, g4, f4]

theorem below_enc_length {a b : List (List UInt8)} (h : Below a b) : (encName b).length ≤ (encName a).length := by
  have e : ∀ n : List (List UInt8), (encName (lowered n)).length = (encName n).length := by
    intro n
    have := Remote.encLabels_lower_length n
    simp only [encName, List.length_append, ← lowerLabels_lowered, this]
  have h' : lowered b <:+ lowered a := h
  obtain ⟨x, hx⟩ := h'
  rw [← e a, ← e b, ← hx]
  simp [encName, encLabels]

theorem asked_nameOk {c : List UInt8} (hr : IsRead c) {ls : List (List UInt8)} {t : Nat} (hok : LabelsOk ls) (ha : AsksFor c ls t) :
    Spec.NameOk (lowered ls) := lowered_ok ⟨hok, hr.1 ls t hok ha⟩

theorem any_taken {cfg : Cfg} {conf : Conf} {c spare a0 query l junk : List UInt8} {count : Nat} {up : Bool} {st : Step}
    (hr : IsRead c) (h : Came cfg c spare a0 count query l up junk st) {q : List (List UInt8)} {t : Nat} (ha : Asked query q t)
    {heard : Log} {z z0 : List (List UInt8)} {from_ : List UInt8} (hs : Servers (Remote.dstr l) z) (hbz : Below q z)
    (hz0 : Vouched conf heard z0 from_) (hzz : Below z z0) :
    Taken (Vouched conf ((from_, c) :: heard)) (fun q _ => ∃ t, Spoken conf ((from_, c) :: heard) q t)
      (Worded conf ((from_, c) :: heard) (Joins cfg))
      z q t st := by
  obtain ⟨ls, t0, t1, hlegal, hasks, hquery, hquest⟩ := h.read
  have b0 := t0.toNat_lt
  have b1 := t1.toNat_lt
  obtain ⟨rfl, rfl⟩ := key_inj ha.1 (asked_nameOk hr hlegal.ok hasks) ha.2.1 (by omega) (ha.2.2.symm.trans hquery)
  have hlow := sameName_lowered ls
  have hz0' : Vouched conf ((from_, c) :: heard) z0 from_ := hz0.mono fun x hx => List.mem_cons_of_mem _ hx
  have hasked : Below ls z0 := below_trans (sameName_below hlow hbz) hzz
  have hspoken : Spoken conf ((from_, c) :: heard) (lowered ls) (t0.toNat * 256 + t1.toNat) :=
    ⟨z0, from_, c, ls, hz0', below_trans hbz hzz, List.mem_cons_self .., hasks, rfl⟩
  have hjudged : ∀ z' x, MayDelegate z (lowered ls) z' → Vouched conf ((from_, c) :: heard) z' (encName z' ++ x) := fun z' x hm =>
    .referred hz0' (List.mem_cons_self ..) hasks hasked (MayDelegate.up hzz ⟨hm.1, sameName_below hlow hm.2⟩)
  have hlen : ∀ z', MayDelegate z (lowered ls) z' → (encName z').length ≤ 255 := fun z' hm =>
    Nat.le_trans (below_enc_length hm.2) ha.1.2
  obtain ⟨q, x, answer, d, ttl, e1, f1, f2, e2, e3, e4⟩ := cacheDnsReply_step h.step
  rw [hquest] at e1
  cases e1
  have hlim := h.lim
  have hthree := h.three
  have few := hr.2 spare junk x query answer d h.three hquest f1 f2 e2 e3
  generalize (if x.toNat % 16 = 3 then (1 : UInt8) else 0) = k at e2
  have hhack : Usable (hack (c ++ spare) c.length) := by
    refine ⟨?_, by simp [hack], by simp only [hack]; omega⟩
    unfold WF hack
    simp only [List.length_take, List.length_append]
    omega
  have hq : Dissect.Asked (Remote.dstr query) (lowered ls) (t0.toNat * 256 + t1.toNat) := by
    have := asked_of hlegal
    rwa [← be16_bytes, lowerLabels_lowered, ← hquery] at this
  have hst : Sound True (fun z' => MayDelegate z (lowered ls) z') (lowered ls) (t0.toNat * 256 + t1.toNat) st := by
    rcases packetToCache_any hhack (show c.length < 1000000 by omega) k junk with e | ⟨x, e, hx⟩
    · rw [e] at e2; cases e2
    rw [e] at e2
    cases e2
    by_cases hsane : answer.sane = true
    · have hu := hx.1.usable hsane
      have hm := hx.2
      have hlt := hu.lt
      have : (hack (c ++ spare) c.length).len = c.length := rfl
      rcases decompress_total hu hq.usable junk (by rw [hu.clen]; omega) with e | ⟨d', e, hd, hd2⟩
      · rw [e] at e3; cases e3
      rw [e] at e3
      cases e3
      replace few : ∃ n, d.fetchU16 ((d.len : Int) - 1 - 4) = .ok n ∧ n ≤ 15 := by
        obtain ⟨front, n, ar, kind, hc, hn⟩ := few
        refine ⟨n, ?_, hn⟩
        rw [← fetchU16_at hd (bytesAt_mid (s := d) (pre := front) (l := be16 n) (post := be16 ar ++ [kind]) (by rw [hc]; simp)) (by omega)]
        congr 1
        rw [← hd.clen, hc]
        simp only [List.length_append, be16_length, List.length_singleton]
        omega
      rcases cacheReply_any hs.usable (servers_legible hs) hq hd (by unfold Short; rw [← hd.clen]; omega) cfg.times up ttl junk with
        e | ⟨st', e, hS⟩
      · rw [e] at e4; cases e4
      rw [e] at e4
      cases e4
      refine ⟨fun n hn => ?_, fun p hp => ?_, hS.follow⟩
      · obtain ⟨h1, h2, h3⟩ := hS.ns n hn
        refine ⟨h1, h2, fun _ => ?_⟩
        rcases h3 few with h3 | ⟨z', x, h4, h5, h6⟩
        · exact .inl h3
        · exact .inr ⟨z', x, h4, h5 z hs, h6⟩
      · rcases hS.puts p hp with h1 | h1 | ⟨name, h1, h3, h2, h4⟩
        · exact .inl h1
        · exact .inr (.inl h1)
        · refine .inr (.inr ⟨name, h1, h3, h2, fun _ => ?_⟩)
          rcases h4 few with h4 | ⟨z', x, h5, h6, h7⟩
          · exact .inl h4
          · exact .inr ⟨z', x, h5, h6 z hs, h7⟩
    · have : decompress (Remote.dstr query) answer junk = .err := by
        unfold decompress
        simp [hsane]
      rw [this] at e3
      cases e3
  refine ⟨?_, ?_, ?_⟩
  · intro e he
    rcases hst.puts e he with h1 | h1 | ⟨name, h1, h2, -, h4⟩
    · exact .inl ⟨h1, .told hspoken⟩
    · exact .inr (.inl ⟨h1, _, hspoken⟩)
    · rcases h4 trivial with ⟨h5, h6⟩ | ⟨z', x, h5, h6, h7, h8⟩
      · exact .inr (.inr (.inr ⟨by rw [h1, h5]; rfl, h6⟩))
      · exact .inr (.inr (.inl ⟨z', x, ⟨h5, hlen z' h6⟩, by rw [h8]; exact hjudged z' x h6, by rw [h1, h7], h8, h2⟩))
  · intro n hn
    obtain ⟨h1, -, h3⟩ := hst.ns n hn
    rcases h3 trivial with h3 | ⟨z', x, h4, h5, h6⟩
    · exact .inl h3
    · exact .inr ⟨z', x, ⟨h4, hlen z' h5⟩, by rw [h6]; exact hjudged z' x h5, h5.1.1, h5.2, h6, h1⟩
  · intro q' hq'
    obtain ⟨p, n, h1, h2⟩ := hst.follow q' hq'
    exact ⟨p, n, h1, ⟨_, hspoken⟩, h2⟩

/-- Messages of which the answer is short enough when written out. -/
theorem IsMsg.read {c : List UInt8} (h : IsMsg c) : IsRead c := by
  obtain ⟨hlen, m, hm, hf, few⟩ := h
  have hh : m.header.length = 12 := by simp only [Msg.header, List.length_append, be16_length, hm.head]
  refine ⟨fun n t hn ha => ?_, ?_⟩
  · obtain ⟨h, rest, h1, h2⟩ := ha
    obtain ⟨rest', hr⟩ := hf.front
    rw [h2] at hr
    have e := congrArg (List.drop 12) hr
    rw [List.append_assoc, List.drop_append_of_le_length (by omega), List.drop_of_length_le (by omega),
      List.drop_append_of_le_length (by omega), List.drop_of_length_le (by omega)] at e
    simp only [List.nil_append, Msg.question, List.append_assoc] at e
    rw [← SR.encName_inj hm.qname.1 hn e]
    exact hm.qname.2
  · intro spare junk x q answer d hs hq hx h2 ha hd
    have hrc : x.toNat % 16 = m.rcode := by
      obtain ⟨rest, hr⟩ := hf.front
      have h4 := hm.head
      have hb : (c ++ spare)[3]? = some (m.head.getD 3 0) := by
        rw [← hr, Msg.header]
        simp only [List.append_assoc]
        rw [List.getElem?_append_left (by omega), List.getElem?_eq_getElem (by omega), List.getD_eq_getElem?_getD,
          List.getElem?_eq_getElem (by omega)]
        rfl
      rw [hx] at hb
      cases hb
      rfl
    rw [question_from hm hf.front spare hlen] at hq
    cases hq
    rw [hrc] at h2 ha
    obtain ⟨o, inp, p', -, -, -, s1, s2, -, -, -, -, -, e1, e2, -⟩ :=
      incoming_parts ⟨0, 0, 0, 0⟩ false (fun _ => false) (Remote.dstr []) false hm h2 hs hlen hf junk
    rw [e1] at ha
    cases ha
    rw [e2] at hd
    cases hd
    have hc := s2.contents
    rw [Packed.enc] at hc
    refine ⟨_, _, _, _, hc, ?_⟩
    show (p'.ns.map Rec.toRR).length ≤ 15
    rw [List.length_map, ← sameRecs_length s1.ns]
    exact few

/-- Lists as `Vouched` says; aliases for what was `Spoken` of, answers as `Worded` says. -/
def anyBelief (cfg : Cfg) (conf : Conf) : Belief cfg where
  trusted := Vouched conf
  aliased := fun h q _ => ∃ t, Spoken conf h q t
  answered := fun h => Worded conf h (Joins cfg)
  readable := IsRead
  trusted_mono := fun hh _ _ h => h.mono hh
  aliased_mono := fun hh _ _ h => h.imp fun _ h => h.mono hh
  answered_mono := fun hh _ _ _ h => h.mono hh
  joined := fun h h' h'' => h.elim fun _ h => .joined h h' h''
  asked := fun hr h => by
    obtain ⟨ls, t0, t1, hlegal, hasks, hquery, -⟩ := h.read
    have b0 := t0.toNat_lt
    have b1 := t1.toNat_lt
    have ht := hlegal.type
    rw [← UInt8.toNat_inj] at ht
    have : (0xff : UInt8).toNat = 255 := rfl
    exact ⟨_, _, ⟨asked_nameOk hr hlegal.ok hasks, by omega, hquery⟩, by omega, by omega⟩
  taken := fun hr h _ _ ha _ _ _ _ hs hb ht hz => any_taken hr h ha hs hb ht hz

end Trust
end Dw
