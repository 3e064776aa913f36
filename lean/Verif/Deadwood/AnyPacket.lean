import Verif.Deadwood.AnyDissect
import Verif.Deadwood.DnsStrProps
/-!
# Lemmas: any packet, off the wire
-/

namespace Dw
namespace Incoming
open DwStr Dissect Spec

/-- What is behind the question, when there may be nothing. -/
theorem substr_behind {s : DwStr} (h : Usable s) (hl : s.len < 1000000) (b : Nat) (hb : b < 2000000) (junk : List UInt8) :
    Fine (s.substr b (-1) 7 junk) fun c => Live c ∧ c.max ≤ s.len + 8 := by
  have hcl := h.clen
  by_cases hle : b ≤ s.len
  · rw [substr_minus1 hle]
    obtain ⟨c, e, h1, h2, -⟩ := substr_in h b (s.len - b) 7 junk (by omega) (by omega)
    exact .inr ⟨c, e, h1.live, by omega⟩
  · unfold substr
    simp only [h.sane, Bool.not_true, Bool.false_eq_true, if_false, if_neg (show ¬ ((b : Int) < 0) by omega),
      if_pos (show ((-1 : Int) < 0) by decide), if_pos (show (7 : Int) ≥ 0 by decide)]
    rw [if_neg (by omega)]
    have h0 : ((s.len : Int) - b + -1 + 1).toNat = 0 := by omega
    simp only [h0, substrLoop]
    by_cases hsz : u32 ((s.len : Int) - b + -1 + 1 + 7 + 1) < 134217728
    · obtain ⟨c0, hc0⟩ := create_eq junk hsz
      obtain ⟨g1, g2, g3, _⟩ := create_ok hc0
      rw [hc0]
      have hs8 : u32 ((s.len : Int) - b + -1 + 1 + 7 + 1) ≤ 8 := by
        unfold u32 at hsz ⊢
        omega
      refine .ok ⟨⟨g1, by simp, by simp only; omega⟩, by simp only; omega⟩
    · have : create (u32 ((s.len : Int) - b + -1 + 1 + 7 + 1)) junk = .err := by
        unfold create
        rw [if_pos (by omega)]
      rw [this]
      exact .err

theorem pushIgn_any {s : DwStr} (h : Live s) (v : Nat) : ∃ t, pushIgn v s = .ok t ∧ Live t ∧ t.max = s.max := by
  unfold pushIgn
  by_cases hs : s.sane = true
  · rcases pushU16_any v (h.usable hs) with e | ⟨t, e, h1, h2⟩
    · rw [e]; exact ⟨s, rfl, h, rfl⟩
    · rw [e]; exact ⟨t, rfl, h1.live, h2⟩
  · have : pushU16 v s = .err := by
      unfold pushU16 putU16
      simp [hs]
    rw [this]
    exact ⟨s, rfl, h, rfl⟩

theorem addcharIgn_any {s : DwStr} (h : Live s) (b : UInt8) : ∃ t, addcharIgn b s = .ok t ∧ Live t ∧ t.max = s.max := by
  unfold addcharIgn
  by_cases hs : s.sane = true
  · rcases addchar_any b (h.usable hs) with e | ⟨t, e, h1, h2, -⟩
    · rw [e]; exact ⟨s, rfl, h, rfl⟩
    · rw [e]; exact ⟨t, rfl, h1.live, h2⟩
  · have : addchar b s = .err := by
      unfold addchar
      simp [hs]
    rw [this]
    exact ⟨s, rfl, h, rfl⟩

theorem packetToCache_any {s : DwStr} (h : Usable s) (hl : s.len < 1000000) (type : UInt8) (junk : List UInt8) :
    Fine (packetToCache s type junk) fun t => Live t ∧ t.max ≤ s.len + 8 := by
  unfold packetToCache
  refine (show Fine (s.fetchU16 6) (· < 65536) from fetchU16_safe h _ (by omega)).bind fun a _ => ?_
  refine (show Fine (s.fetchU16 8) (· < 65536) from fetchU16_safe h _ (by omega)).bind fun b _ => ?_
  refine (show Fine (s.fetchU16 10) (· < 65536) from fetchU16_safe h _ (by omega)).bind fun c _ => ?_
  have hend : Fine (s.getDnEnd 12) (· ≤ s.len + 64) := by
    by_cases h12 : 12 ≤ s.len
    · exact getDnEnd_any h 12 h12
    · left
      unfold getDnEnd
      simp only [h.sane, Bool.not_true, Bool.false_eq_true, if_false]
      unfold dnEndLoop
      rw [if_pos (by omega)]
  refine hend.bind fun o ho => ?_
  refine (substr_behind h hl (o + 4) (by omega) junk).bind fun o0 h0 => ?_
  obtain ⟨o1, e1, h1, m1⟩ := pushIgn_any h0.1 a
  obtain ⟨o2, e2, h2, m2⟩ := pushIgn_any h1 b
  obtain ⟨o3, e3, h3, m3⟩ := pushIgn_any h2 c
  obtain ⟨o4, e4, h4, m4⟩ := addcharIgn_any h3 type
  rw [e1, Res.ok_bind, e2, Res.ok_bind, e3, Res.ok_bind, e4]
  exact .ok ⟨h4, by have := h0.2; omega⟩

theorem checkIp_any (filter : Bool) (blocked : List UInt8 → Bool) {ip : DwStr} (h : Usable ip) :
    ∃ r, checkIp filter blocked ip = .ok r := ⟨_, checkIp_exact h filter blocked⟩

theorem badIpLoop_any (filter : Bool) (blocked : List UInt8 → Bool) {s : DwStr} (h : Usable s) (junk : List UInt8) :
    ∀ l : List (Nat × Nat), Small l → ∃ r, badIpLoop filter blocked s junk l = .ok r
  | [], _ => ⟨_, rfl⟩
  | c :: cs, hl => by
    have hc := (hl c (by simp)).2
    obtain ⟨r, hr⟩ := badIpLoop_any filter blocked h junk cs fun x hx => hl x (by simp [hx])
    have step : ∀ n : Nat, n ≤ 16 → ∃ ip b, s.substr (c.2 + 10 : Nat) n 1 junk = .ok ip ∧ checkIp filter blocked ip = .ok b := by
      intro n hn
      obtain ⟨ip, stale, e, hu, -, -⟩ := substr_any h (c.2 + 10) n 1 junk (by omega) (by omega) (by omega)
      obtain ⟨bad, e2⟩ := checkIp_any filter blocked hu
      exact ⟨ip, bad, e, e2⟩
    have rest : ∀ (b : Bool), ∃ r, (if b = true then (.ok true : Res Bool) else badIpLoop filter blocked s junk cs) = .ok r := by
      intro b
      cases b
      · exact ⟨r, hr⟩
      · exact ⟨_, rfl⟩
    unfold badIpLoop
    have key : ∀ t : Int, ∃ n : Nat, (if t = 1 then 4 else if t = 28 then 16 else 0) = n ∧ n ≤ 16 := by
      intro t
      exact ⟨_, rfl, by split_ifs <;> omega⟩
    rcases fetchU16_safe h (c.2 : Int) (by omega) with e | ⟨v, e, -⟩
    all_goals
      rw [e]
      simp only [Res.ok_bind]
    · exact ⟨r, by simpa using hr⟩
    · obtain ⟨n, e1, hn⟩ := key v
      rw [e1]
      split
      · exact ⟨r, hr⟩
      · obtain ⟨ip, b, e2, e3⟩ := step n hn
        obtain ⟨r2, h2⟩ := rest b
        refine ⟨r2, ?_⟩
        rw [← h2, e2]
        simp only [e3, Res.ok_bind]

theorem hasBadIp_any (filter : Bool) (blocked : List UInt8 → Bool) {s : DwStr} (h : Usable s) (junk : List UInt8) :
    ∃ r, hasBadIp filter blocked s junk = .ok r := by
  unfold hasBadIp
  rcases makeDnsStr_any h junk with e | ⟨look, e, hv⟩
  · rw [e]; exact ⟨_, rfl⟩
  · rw [e]; exact badIpLoop_any filter blocked h junk look.an hv.an

theorem replyTtl_any (cfg : Times) {answer : DwStr} (h : Usable answer) (decomp : DwStr) :
    Fine (replyTtl cfg answer decomp) fun _ => True := by
  unfold replyTtl cachepacketToAncount
  have h1 : Fine (if (!answer.sane) = true ∨ answer.len < 7 then (.err : Res Nat) else answer.fetchU16 (answer.len - 7 : Nat))
      fun _ => True := by
    split
    · exact .err
    · have := h.lt; have := h.lim
      exact (show Fine (answer.fetchU16 _) (· < 65536) from fetchU16_safe h _ (by omega)).mono fun _ _ => trivial
  refine h1.bind fun n _ => ?_
  simp only
  rcases getADnsttl_bound h (if n = 0 then 32 else n) 0 31536000 (by omega) with e | ⟨v, e, -⟩
  · rw [e]
    simp only
    split
    · exact .ok trivial
    · exact .err
  · rw [e]; exact .ok trivial

/-- What is known of what a packet leads to. -/
def Received.Sound (few : Prop) (R : List (List UInt8) → Prop) (qs : List (List UInt8)) (qtype : Nat) : Received → Prop
  | .blocked => True
  | .step st => Dissect.Sound few R qs qtype st

theorem lowerLabels_noCtl {ls : List (List UInt8)} (h : NoCtl ls) : NoCtl (Remote.lowerLabels ls) := by
  intro l hl x hx
  obtain ⟨l', hl', rfl⟩ := List.mem_map.1 hl
  obtain ⟨x', hx', rfl⟩ := List.mem_map.1 hx
  have := h l' hl' x' hx'
  unfold lower
  split
  · have e : (UInt8.ofNat (x'.toNat + 32)).toNat = x'.toNat + 32 := by rw [UInt8.toNat_ofNat']; omega
    rw [UInt8.le_iff_toNat_le, e]
    have : (32 : UInt8).toNat = 32 := rfl
    omega
  · exact this

theorem asked_of {ls : List (List UInt8)} {t0 t1 : UInt8} (h : Remote.Legal ls t0 t1) :
    Asked (Remote.dstr (encName (Remote.lowerLabels ls) ++ [t0, t1])) (Remote.lowerLabels ls) (t0.toNat * 256 + t1.toNat) := by
  have hlen := Remote.encLabels_lower_length ls
  have h256 := h.len
  have hl : (encName (Remote.lowerLabels ls)).length = (encName ls).length := by
    simp only [encName, List.length_append, hlen]
  have b0 := t0.toNat_lt
  have b1 := t1.toNat_lt
  refine ⟨Remote.dstr_usable ?_, Remote.lowerLabels_ok h.ok, lowerLabels_noCtl h.noCtl, by omega, by omega, ?_⟩
  · simp only [List.length_append, List.length_cons, List.length_nil]
    omega
  · rw [Remote.dstr_contents]
    congr 1
    unfold be16
    rw [show (t0.toNat * 256 + t1.toNat) / 256 = t0.toNat by omega]
    congr 1
    · exact UInt8.ofNat_toNat.symm
    · congr 1
      apply UInt8.toNat_inj.1
      rw [UInt8.toNat_ofNat']
      omega

/-- Any packet at all, from any servers that a name can be read of. -/
theorem cacheDnsReply_any (cfg : Times) (filter : Bool) (blocked : List UInt8 → Bool) {ns : DwStr} (hn : Usable ns)
    (hl : Legible ns.contents) (up : Bool) {packet : List UInt8} {count : Nat} (h12 : 12 ≤ count) (hc : count + 3 ≤ packet.length)
    (hmax : count < 65536) (junk : List UInt8) :
    Fine (cacheDnsReply cfg filter blocked ns up packet count junk) fun r =>
      ∃ h ls t0 t1, Remote.Legal ls t0 t1 ∧ Remote.Asks (packet.take count) h ls t0 t1 ∧
        r.Sound False (fun _ => True) (Remote.lowerLabels ls) (t0.toNat * 256 + t1.toNat) := by
  have hhack : Usable (hack packet count) := by
    refine ⟨?_, by simp [hack], by simp only [hack]; omega⟩
    unfold WF hack
    simp only [List.length_take]
    omega
  have hhl : (hack packet count).len = count := rfl
  unfold cacheDnsReply
  have hr : ∃ x, rawPeek packet 3 = .ok x := by
    unfold rawPeek
    rw [List.getElem?_eq_getElem (by omega)]
    exact ⟨_, rfl⟩
  obtain ⟨x, hx⟩ := hr
  rcases Remote.question_cases packet count h12 (by omega) (by omega) with ⟨e, -⟩ | ⟨h, ls, t0, t1, g1, g2, e⟩
  · rw [e]
    simp only [Res.ok_bind, hx]
    split
    · exact .err
    · exact (packetToCache_any hhack (by omega) _ junk).bind fun _ _ => .err
  · rw [e]
    simp only [Res.ok_bind, hx]
    split
    · exact .err
    refine (packetToCache_any hhack (by omega) _ junk).bind fun answer ha => ?_
    have hq := asked_of g1
    generalize Remote.dstr (encName (Remote.lowerLabels ls) ++ [t0, t1]) = q at hq
    by_cases hs : answer.sane = true
    · have hu := ha.1.usable hs
      have hm := ha.2
      have hlt := hu.lt
      rcases decompress_total hu hq.usable junk (by rw [hu.clen]; omega) with e2 | ⟨d, e2, hd, hd2⟩
      · rw [e2]; exact .err
      · rw [e2, Res.ok_bind]
        obtain ⟨bad, e3⟩ := hasBadIp_any filter blocked hd junk
        rw [e3, Res.ok_bind]
        split
        · exact .ok ⟨h, ls, t0, t1, g1, g2, trivial⟩
        · refine (replyTtl_any cfg hu d).bind fun ttl _ => ?_
          refine (cacheReply_any hn hl hq hd (by unfold Short; rw [← hd.clen]; omega) cfg up ttl junk).bind fun st hst => ?_
          refine .ok ⟨h, ls, t0, t1, g1, g2, fun n hn => ?_, fun p hp => ?_, hst.follow⟩
          · obtain ⟨h1, h2, -⟩ := hst.ns n hn
            exact ⟨h1, h2, fun hf => hf.elim⟩
          rcases hst.puts p hp with h1 | h1 | ⟨name, h1, h3, h2, -⟩
          · exact .inl h1
          · exact .inr (.inl h1)
          · exact .inr (.inr ⟨name, h1, h3, h2, fun hf => hf.elim⟩)
    · have : decompress q answer junk = .err := by
        unfold decompress
        simp [hs]
      rw [this]
      exact .err

end Incoming
end Dw
