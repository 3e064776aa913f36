import Verif.Deadwood.IncomingReply
/-!
# Lemmas: a packet becomes a reply
-/

namespace Dw
namespace Incoming
open DwStr Dissect Spec

/-- The question Deadwood reads. -/
theorem question_from {p : Msg} (hp : p.Plain) {c : List UInt8} (hf : (p.header ++ p.question) <+: c) (spare : List UInt8)
    (hc : c.length < 65536) : Remote.question (c ++ spare) c.length = .ok (encName (lowered p.qname) ++ be16 p.qtype) := by
  obtain ⟨rest, hrest⟩ := hf
  have hh : p.header.length = 12 := by simp only [Msg.header, List.length_append, be16_length, hp.head]
  have hd : (c ++ spare).drop 12 = encName p.qname ++ UInt8.ofNat (p.qtype / 256) :: UInt8.ofNat p.qtype ::
      (be16 p.qclass ++ rest ++ spare) := by
    rw [← hrest, List.append_assoc, List.append_assoc, List.drop_left' hh]
    simp [Msg.question, be16]
  have hlen : 12 + (encName p.qname).length + 4 ≤ c.length := by
    rw [← hrest]
    simp only [Msg.question, List.length_append, be16_length, hh]
    omega
  have hctl : NoCtl p.qname := fun l hl x hx => UInt8.le_iff_toNat_le.2 (hp.printable l hl x hx)
  have hq256 := hp.qname.2
  have hty : ¬ (UInt8.ofNat (p.qtype / 256) = 0xff ∧ 0x70 ≤ (UInt8.ofNat p.qtype).toNat ∧ (UInt8.ofNat p.qtype).toNat ≤ 0x7f) := by
    rintro ⟨h1, h2, h3⟩
    have h1 := congrArg UInt8.toNat h1
    simp only [UInt8.toNat_ofNat'] at h1 h2 h3
    have h1 : p.qtype / 256 % 256 = 255 := h1
    have := hp.qtype
    omega
  have hl : Remote.Legal p.qname (UInt8.ofNat (p.qtype / 256)) (UInt8.ofNat p.qtype) :=
    ⟨hp.qname.1, hctl, by omega, hty⟩
  refine Remote.question_of _ _ hl ?_
  have hat : Dw.NameAt (c ++ spare) 12 c.length p.qname := ⟨⟨_, hd⟩, hp.qname.1, hctl, by omega, by omega⟩
  rcases getDnameType_exact (c ++ spare) 12 c.length (by simp) (by omega) with ⟨ls, t0, t1, r2, g1, g2, g3, g4⟩ | ⟨-, g2⟩
  · rw [g4]
    have e : encName p.qname ++ UInt8.ofNat (p.qtype / 256) :: UInt8.ofNat p.qtype :: (be16 p.qclass ++ rest ++ spare) =
        encName ls ++ t0 :: t1 :: r2 := hd.symm.trans g2
    have e1 := SR.encName_inj hp.qname.1 g1.2.1 e
    rw [e1] at e
    have e := List.append_cancel_left e
    simp only [List.cons.injEq] at e
    rw [e1, ← e.1, ← e.2.1]
  · exact absurd ⟨_, _, _, _, hat, hd, hty⟩ g2

theorem lowered_ok {n : List (List UInt8)} (h : Spec.NameOk n) : Spec.NameOk (lowered n) := sameName_ok (lowered_same n) h

/-- A packet becomes a reply with the records of the message; how. -/
theorem incoming_parts (cfg : Times) (filter : Bool) (blocked : List UInt8 → Bool) (ns : DwStr) (up : Bool)
    {p : Msg} (hp : p.Plain) (h2 : p.rcode ≠ 2) {c spare : List UInt8} (hs : 3 ≤ spare.length) (hc : c.length < 65536)
    (hf : p.From c) (junk : List UInt8) :
    ∃ o inp p' Q plen qlen, SameAnswers p.answers p' ∧ Reply inp p' ∧ Usable o ∧
      RecsAt o.mem Q plen qlen 0 p'.all (o.contents.length - 7) ∧ o.contents.drop (o.contents.length - 7) = p.answers.trailer ∧
      7 ≤ o.contents.length ∧
      Asks (Remote.dstr (encName (lowered p.qname) ++ be16 p.qtype)) (lowered p.qname) p.qtype ∧
      packetToCache (hack (c ++ spare) c.length) (if p.rcode = 3 then 1 else 0) junk = .ok o ∧
      decompress (Remote.dstr (encName (lowered p.qname) ++ be16 p.qtype)) o junk = .ok inp ∧
      cacheDnsReply cfg filter blocked ns up (c ++ spare) c.length junk =
        if p.an.any (fun r => r.toRR.bad filter blocked) then .ok .blocked
        else (do
          let ttl ← replyTtl cfg o inp
          let st ← cacheReply cfg ns up (Remote.dstr (encName (lowered p.qname) ++ be16 p.qtype)) inp ttl junk
          .ok (.step st)) := by
  have hrecs := recsVia_length hf.recs
  have hh : p.header.length = 12 := by simp only [Msg.header, List.length_append, be16_length, hp.head]
  have hqn := hp.qname.2
  have hbase : (p.header ++ p.question).length = 16 + (encName p.qname).length := by
    simp only [Msg.question, List.length_append, be16_length, hh]; omega
  have hall : p.all.length = p.an.length + p.ns.length + p.ar.length := by simp [Msg.all, Nat.add_assoc]
  obtain ⟨rest, hrest⟩ := hf.front
  have hlab : p.qname.length < 200 := by
    have : ∀ ls : List (List UInt8), LabelsOk ls → ls.length * 2 ≤ (encLabels ls).length := by
      intro ls
      induction ls with
      | nil => intro; simp
      | cons l ls ih =>
        intro h
        have h1 := ih h.tail
        have h2 := h.head
        rw [encLabels_cons, List.length_append]
        simp only [List.length_cons]
        omega
    have := this _ hp.qname.1
    have he : (encName p.qname).length = (encLabels p.qname).length + 1 := by simp [encName]
    omega
  have hqt : p.qtype < 65536 := by have := hp.qtype; omega
  obtain ⟨o, eo, uo, co⟩ := packetToCache_exact (s := hack (c ++ spare) c.length)
    (hack_usable (by simp; omega) (by omega)) hp.head hp.qname.1 hlab (by omega) (by omega) (by omega)
    (by simp only [hack]; omega) (rest := rest) (by rw [hack_contents, hrest]) (if p.rcode = 3 then 1 else 0) junk
  have co' : o.contents = rest ++ p.answers.trailer := co
  have htr : p.answers.trailer.length = 7 := by simp [Answers.trailer, be16_length]
  have hql : (encName (lowered p.qname)).length = (encName p.qname).length := by
    simp only [encName, List.length_append, lowered_enc]
  have uq : Usable (Remote.dstr (encName (lowered p.qname) ++ be16 p.qtype)) :=
    Remote.dstr_usable (by rw [List.length_append, be16_length]; omega)
  have hask : Asks (Remote.dstr (encName (lowered p.qname) ++ be16 p.qtype)) (lowered p.qname) p.qtype :=
    ⟨uq, lowered_ok hp.qname, hqt, Remote.dstr_contents _⟩
  have hqlen : (Remote.dstr (encName (lowered p.qname) ++ be16 p.qtype)).len = (encName p.qname).length + 2 := by
    rw [← uq.clen, Remote.dstr_contents, List.length_append, be16_length, hql]
  have hsh : Shifted (memOf c) o.mem (16 + (encName p.qname).length) := by
    intro j x hx
    simp only [mem, memOf] at hx ⊢
    rw [← hrest, List.getElem?_append_right (by omega), hbase] at hx
    rw [show 16 + (encName p.qname).length + j - (16 + (encName p.qname).length) = j by omega] at hx
    rw [co', List.getElem?_append_left (List.getElem?_eq_some_iff.1 hx).1]
    exact hx
  have hclen : c.length = 16 + (encName p.qname).length + rest.length := by
    rw [← hrest, List.length_append, hbase]
  have holen : o.contents.length = rest.length + 7 := by rw [co', List.length_append, htr]
  have holen' : o.len = rest.length + 7 := by rw [← uo.clen, holen]
  obtain ⟨-, rs', e1, g1⟩ := recs_over hsh hask.plain (plen := o.len) (by omega) hqlen hf.recs (by omega)
  rw [hbase, Nat.sub_self] at g1
  obtain ⟨x, ar', e2, s12, s3⟩ := sameRecs_append (a := p.an ++ p.ns) e1
  obtain ⟨an', ns', e3, s1, s2⟩ := sameRecs_append s12
  subst e3 e2
  have same : SameAnswers p.answers ⟨an', ns', ar', if p.rcode = 3 then 1 else 0⟩ := ⟨s1, s2, s3, rfl⟩
  have hallS : SameRecs p.answers.all (an' ++ ns' ++ ar') := e1
  have hplain' : ∀ r ∈ an' ++ ns' ++ ar', r.Plain := sameRecs_forall (fun _ _ => sameRec_plain) hallS hp.recs
  obtain ⟨-, hsz⟩ := sameRecs_all hallS (fun r hr => (hp.recs r hr).ok)
  have hlen' := packed_length (p := p.answers) (fun r hr => (hp.recs r hr).ok)
  have hlen'' := packed_length (p := ⟨an', ns', ar', if p.rcode = 3 then 1 else 0⟩) (fun r hr => (hplain' r hr).ok)
  have hcnt := sameRecs_length hallS
  have hdrop : o.contents.drop (o.contents.length - 7) = p.answers.trailer := by
    rw [holen, co', Nat.add_sub_cancel, List.drop_left]
  have g1' : RecsAt o.mem (Remote.dstr (encName (lowered p.qname) ++ be16 p.qtype)).mem o.len
      (Remote.dstr (encName (lowered p.qname) ++ be16 p.qtype)).len 0 (an' ++ ns' ++ ar') (o.contents.length - 7) := by
    rw [holen, show rest.length + 7 - 7 = c.length - (16 + (encName p.qname).length) by omega]
    exact g1
  have hsize := hp.size
  obtain ⟨inp, einp, hrep⟩ := reply_wire (p := ⟨an', ns', ar', if p.rcode = 3 then 1 else 0⟩) uq uo junk hplain' g1'
    (by
      rw [hdrop]
      unfold Answers.trailer Msg.answers
      simp only
      rw [sameRecs_length s1, sameRecs_length s2, sameRecs_length s3])
    (by
      have hcnt' : (⟨an', ns', ar', if p.rcode = 3 then 1 else 0⟩ : Answers).all.length = p.answers.all.length := hcnt.symm
      have hsz' : sizes ((⟨an', ns', ar', if p.rcode = 3 then 1 else 0⟩ : Answers).all.map Rec.toRR) =
        sizes (p.answers.all.map Rec.toRR) := hsz.symm
      rw [hlen'', hcnt', hsz', ← hlen']
      exact hp.size)
    (by
      by_cases h3 : p.rcode = 3
      · exact .inr (.inl (by simp [h3]))
      · exact .inl (by simp [h3]))
    (by
      intro h
      have hcnt' : p.all.length = 0 := by
        have := congrArg List.length h
        have hx : (⟨an', ns', ar', if p.rcode = 3 then 1 else 0⟩ : Answers).all.length = p.all.length := hcnt.symm
        rw [hx] at this
        simpa using this
      exact hp.some (List.length_eq_zero_iff.1 hcnt'))
  have hbad : hasBadIp filter blocked inp junk = .ok (p.an.any fun r => r.toRR.bad filter blocked) := by
    have hmem : ∀ r ∈ an', r.Plain := fun r hr => hplain' r (by simp [hr])
    have := hasBadIp_exact hrep.usable hrep.packed (by
        have := hrep.some
        rw [packed_all]
        simpa using this) hrep.contents
      (by
        intro r hr ht
        obtain ⟨x, hx, rfl⟩ := List.mem_map.1 hr
        exact sameRecs_forall (P := fun r => r.type = 1 → 4 ≤ r.rdata.length)
          (fun r r' hh hp ht => by rw [← sameRec_rdata hh]; exact hp (hh.type ▸ ht)) s1 hp.a x hx ht)
      (by
        intro r hr ht
        obtain ⟨x, hx, rfl⟩ := List.mem_map.1 hr
        exact sameRecs_forall (P := fun r => r.type = 28 → 16 ≤ r.rdata.length)
          (fun r r' hh hp ht => by rw [← sameRec_rdata hh]; exact hp (hh.type ▸ ht)) s1 hp.aaaa x hx ht)
      filter blocked junk
    rw [this]
    congr 1
    rw [any_bad_same s1 (fun r hr => (hp.recs r (by simp [Msg.all, hr])).ok)]
    simp only [Answers.packed, List.any_map]
    rfl
  refine ⟨o, inp, _, _, _, _, same, hrep, uo, g1', hdrop, by omega, hask, eo, einp, ?_⟩
  have hpk : rawPeek (c ++ spare) 3 = .ok (p.head.getD 3 0) := by
    unfold rawPeek
    have h4 := hp.head
    have hb : (c ++ spare)[3]? = some (p.head.getD 3 0) := by
      rw [← hrest, Msg.header]
      simp only [List.append_assoc]
      rw [List.getElem?_append_left (by omega), List.getElem?_eq_getElem (by omega), List.getD_eq_getElem?_getD,
        List.getElem?_eq_getElem (by omega)]
      rfl
    rw [hb]
  unfold cacheDnsReply
  rw [question_from hp hf.front spare hc]
  simp only [Res.ok_bind]
  rw [hpk]
  simp only [Res.ok_bind]
  have hrc : (p.head.getD 3 0).toNat % 16 = p.rcode := rfl
  rw [hrc, if_neg h2, eo, Res.ok_bind, einp, Res.ok_bind, hbad, Res.ok_bind]

/-- A packet becomes a reply with the records of the message. -/
theorem incoming_eq (cfg : Times) (filter : Bool) (blocked : List UInt8 → Bool) (ns : DwStr) (up : Bool)
    {p : Msg} (hp : p.Plain) (h2 : p.rcode ≠ 2) {c spare : List UInt8} (hs : 3 ≤ spare.length) (hc : c.length < 65536)
    (hf : p.From c) (junk : List UInt8) :
    ∃ o inp p' Q plen qlen, SameAnswers p.answers p' ∧ Reply inp p' ∧ Usable o ∧
      RecsAt o.mem Q plen qlen 0 p'.all (o.contents.length - 7) ∧ o.contents.drop (o.contents.length - 7) = p.answers.trailer ∧
      7 ≤ o.contents.length ∧
      Asks (Remote.dstr (encName (lowered p.qname) ++ be16 p.qtype)) (lowered p.qname) p.qtype ∧
      cacheDnsReply cfg filter blocked ns up (c ++ spare) c.length junk =
        if p.an.any (fun r => r.toRR.bad filter blocked) then .ok .blocked
        else (do
          let ttl ← replyTtl cfg o inp
          let st ← cacheReply cfg ns up (Remote.dstr (encName (lowered p.qname) ++ be16 p.qtype)) inp ttl junk
          .ok (.step st)) := by
  obtain ⟨o, inp, p', Q, plen, qlen, h1, h3, h4, h5, h6, h7, h8, -, -, h9⟩ :=
    incoming_parts cfg filter blocked ns up hp h2 hs hc hf junk
  exact ⟨o, inp, p', Q, plen, qlen, h1, h3, h4, h5, h6, h7, h8, h9⟩

/-! ### Lifetimes -/

theorem ancount_of {o : DwStr} (ho : Usable o) {p : Msg} (h : o.contents.drop (o.contents.length - 7) = p.answers.trailer)
    (h7 : 7 ≤ o.contents.length) (hn : p.an.length < 65536) : o.cachepacketToAncount = .ok p.an.length := by
  unfold cachepacketToAncount
  have hl := ho.clen
  rw [ho.sane, if_neg (by simp; omega)]
  refine fetchU16_at ho ?_ hn
  have := bytesAt_mid (s := o) (pre := o.contents.take (o.len - 7)) (l := be16 p.an.length)
    (post := be16 p.ns.length ++ be16 p.ar.length ++ [p.answers.kind]) (by
      conv_lhs => rw [← List.take_append_drop (o.contents.length - 7) o.contents, h, hl]
      simp [Answers.trailer, Msg.answers])
  rwa [List.length_take, Nat.min_eq_left (by omega)] at this

theorem replyTtl_safe (cfg : Times) {o inp : DwStr} (ho : Usable o) {p : Msg}
    (h : o.contents.drop (o.contents.length - 7) = p.answers.trailer)
    (h7 : 7 ≤ o.contents.length) (hn : p.an.length < 65536) :
    replyTtl cfg o inp = .err ∨ ∃ t, replyTtl cfg o inp = .ok t := by
  unfold replyTtl
  rw [ancount_of ho h h7 hn, Res.ok_bind]
  rcases getADnsttl_bound ho (if p.an.length = 0 then 32 else p.an.length) 0 31536000 (by omega) with e | ⟨v, e, -⟩
  · simp only [e]
    split
    · exact .inr ⟨_, rfl⟩
    · exact .inl rfl
  · simp only [e]
    exact .inr ⟨_, rfl⟩

/-- The lifetime that the records give. -/
theorem replyTtl_exact (cfg : Times) {o inp : DwStr} (ho : Usable o) {p : Msg}
    (h : o.contents.drop (o.contents.length - 7) = p.answers.trailer)
    (h7 : 7 ≤ o.contents.length) (hn : p.an.length < 65536) {Q : Mem} {plen qlen : Nat} {rs : List Rec} {e : Nat}
    (hr : RecsAt o.mem Q plen qlen 0 rs e) {cs rest : List Rec} {r : Rec} (hrs : rs = cs ++ r :: rest)
    (h5 : ∀ x ∈ cs, x.type = 5) (h5' : r.type ≠ 5) (hok : ∀ x ∈ rs, x.Ok) (hts : ∀ x ∈ cs ++ [r], x.ttl < 2147483648)
    (hdepth : cs.length + 1 ≤ if p.an.length = 0 then 32 else p.an.length) :
    ∃ t, replyTtl cfg o inp = .ok t ∧ within cfg.min cfg.max t = within cfg.min cfg.max (lifetime cs (r :: rest)) := by
  subst hrs
  have hch := ttlChain_of ho h5' h5 (fun x hx => hok x (by
    rcases List.mem_append.1 hx with hx | hx
    · exact List.mem_append_left _ hx
    · rw [List.mem_singleton.1 hx]; simp)) hr
  have e := getADnsttl_chain ho hch (by
    intro t ht
    obtain ⟨x, hx, rfl⟩ := List.mem_map.1 ht
    exact hts x hx) (if p.an.length = 0 then 32 else p.an.length) 31536000 (by simpa using hdepth) (by omega) (by omega)
  have hlife : Nat.max 60 (least 31536000 ((cs ++ [r]).map Rec.ttl)) = lifetime cs (r :: rest) := by
    unfold lifetime least
    rw [List.foldl_map]
    rfl
  rw [hlife] at e
  unfold replyTtl
  rw [ancount_of ho h h7 hn, Res.ok_bind]
  simp only [e]
  refine ⟨_, rfl, ?_⟩
  unfold within
  generalize (lifetime cs (r :: rest) : Int) = t
  split <;> split <;> split <;> omega

end Incoming
end Dw
