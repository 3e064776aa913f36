import Verif.Mara.ServeModel
import Verif.Mara.ZoneRead
import Verif.Spec.Serve
/-!
# The zone transfer server: what each record of the file puts into the buffer
-/

namespace Mara
namespace Serve

open Dw (Res)
open Spec (Name Host ZoneLine Given encName LabelsOk lowName madeNs madeSoa num32 reverse4 reverse6 ascii hex8)
open Spec.Serve
open Big (base)
open Zf (Env St Rr envOf toRr ZoneOk ZoneLineOk synthLabel)

/-- The server and a zone. -/
def env2 (h : Host) (zone : Name) : Env := { envOf h zone with method := 2 }

/-- A record in the buffer. -/
def rrOf (c : Copy) : Rr := ⟨encName c.name, c.type, c.ttl, c.data⟩

/-- Records are added to the buffer. -/
def put (st : St) (l : List Copy) : St := { st with buffer := st.buffer ++ l.map rrOf }

theorem put_nil (st : St) : put st [] = st := by simp [put]

theorem put_put (st : St) (a b : List Copy) : put (put st a) b = put st (a ++ b) := by simp [put]

theorem put_length (st : St) (l : List Copy) : (put st l).buffer.length = st.buffer.length + l.length := by simp [put]

variable {h : Host} {zone : Name}

theorem base_starred (star : Bool) {n : Name} (hn : LabelsOk n) : (match base star n with
    | c :: r => if c = 95 then 1 :: 42 :: r else c :: r
    | [] => []) = encName (starred star n) := by
  cases star with
  | true =>
    show (if (95 : UInt8) = 95 then 1 :: 42 :: encName n else _) = encName ([42] :: n)
    rw [if_pos rfl, Lookup.encName_cons]
    rfl
  | false =>
    show (match encName n with
    | c :: r => if c = 95 then 1 :: 42 :: r else c :: r
    | [] => []) = encName n
    cases n with
    | nil => rfl
    | cons l n =>
      rw [Lookup.encName_cons]
      show (if UInt8.ofNat l.length = 95 then _ else _) = _
      have := hn l (List.mem_cons_self ..)
      rw [if_neg (by
        intro hc
        have := congrArg UInt8.toNat hc
        rw [UInt8.toNat_ofNat', Nat.mod_eq_of_lt (by omega)] at this
        simp at this
        omega)]

theorem process_put (st : St) (star : Bool) {n : Name} (hn : LabelsOk n) {t : Nat} (ht : t ≠ 6) {ttl : Int} (h0 : 0 ≤ ttl) (d : List UInt8)
    (hb : st.buffer.length < 66) :
    Zf.process (env2 h zone) st (base star n) t ttl d = (true, put st [⟨starred star n, t, ttl.toNat, d⟩]) := by
  have hp : ∀ q, Zf.push st ⟨q, t, ttl, d⟩ = (true, { st with buffer := st.buffer ++ [⟨q, t, ttl, d⟩] }) := by
    intro q
    unfold Zf.push
    rw [if_neg (by omega)]
  have e := base_starred star hn
  unfold Zf.process
  rw [if_pos (show (env2 h zone).method = 2 from rfl)]
  unfold Zf.toServer
  rw [if_neg ht]
  have hr : rrOf ⟨starred star n, t, ttl.toNat, d⟩ = ⟨encName (starred star n), t, ttl, d⟩ := by
    unfold rrOf
    simp only
    rw [Int.toNat_of_nonneg h0]
  unfold put
  rw [List.map_cons, List.map_nil, hr, ← e]
  cases base star n with
  | nil => exact hp _
  | cons c r =>
    simp only
    split
    · exact hp _
    · exact hp _

/-- What the parser gives, with a TTL that is not negative. -/
structure LineOk (zone : Name) (e : ZoneLine) : Prop extends ZoneLineOk zone e where
  ttl : 0 ≤ e.ttl

theorem addW_put (st : St) {e : ZoneLine} (he : LineOk zone e) (h6 : e.type ≠ 6) (hb : st.buffer.length + (lineSent zone e).length ≤ 66) :
    Zf.addW (env2 h zone) st (toRr e) = .ok (true, put st (lineSent zone e)) := by
  have hq : (toRr e).query.map Zf.lowByte = base e.star (lowName e.name) := Zf.base_low he.labels e.star
  have hname : (if e.star then [95] else []) ++ encName (lowName e.name) = base e.star (lowName e.name) := by
    unfold base
    cases e.star <;> rfl
  have hlow : LabelsOk (lowName e.name) := Lookup.lowName_ok he.labels
  unfold lineSent ZoneLine.stands at hb ⊢
  unfold Zf.addW
  rw [hq]
  simp only [hname] at hb ⊢
  rcases he.type with ht | ⟨ht, hd⟩ | ⟨ht, hd⟩
  · have h1 : (toRr e).type ≠ 65765 := by show e.type ≠ _; omega
    have h2 : (toRr e).type ≠ 65766 := by show e.type ≠ _; omega
    rw [if_neg (show ¬ e.type = 65765 from h1), if_neg (show ¬ e.type = 65766 from h2)] at hb ⊢
    rw [if_neg h1, if_neg h2]
    rw [process_put st e.star hlow (show (toRr e).type ≠ 6 from h6) (show 0 ≤ (toRr e).ttl from he.ttl) _ (by simp at hb; omega)]
    rfl
  · have h1 : (toRr e).type = 65765 := ht
    have h3 : ¬ ((env2 h zone).method = 3) := by simp [env2]
    rw [if_pos ht] at hb ⊢
    simp at hb
    rw [if_pos h1, if_neg h3]
    rw [show Zf.makePtr (toRr e).data = _ from Zf.makePtr_ok hd]
    simp only
    rw [Zf.encName_low (Zf.reverse4_ok _).1, (Zf.reverse4_ok _).2.1]
    rw [show encName (reverse4 (toRr e).data) = base false (reverse4 (toRr e).data) from rfl]
    rw [process_put st false (Zf.reverse4_ok _).1 (show 12 ≠ 6 by decide) (show 0 ≤ (toRr e).ttl from he.ttl) _ (by omega)]
    simp only
    rw [process_put _ e.star hlow (by decide) (show 0 ≤ (toRr e).ttl from he.ttl) _ (by rw [put_length]; simp; omega), put_put]
    rfl
  · have h1 : (toRr e).type ≠ 65765 := by show e.type ≠ _; omega
    have h2 : (toRr e).type = 65766 := ht
    have h3 : ¬ ((env2 h zone).method = 3) := by simp [env2]
    rw [if_neg (show ¬ e.type = 65765 from h1), if_pos ht] at hb ⊢
    simp at hb
    rw [if_neg h1, if_pos h2, if_neg h3]
    rw [show Zf.makePtr6 (toRr e).data = _ from Zf.makePtr6_ok hd]
    simp only
    rw [Zf.encName_low (Zf.reverse6_ok _).1, (Zf.reverse6_ok _).2.1]
    rw [show encName (reverse6 (toRr e).data) = base false (reverse6 (toRr e).data) from rfl]
    rw [process_put st false (Zf.reverse6_ok _).1 (show 12 ≠ 6 by decide) (show 0 ≤ (toRr e).ttl from he.ttl) _ (by omega)]
    simp only
    rw [process_put _ e.star hlow (by decide) (show 0 ≤ (toRr e).ttl from he.ttl) _ (by rw [put_length]; simp; omega), put_put]
    rfl

theorem addW_made (st : St) {n : Name} {t : Nat} {d : List UInt8} (hl : LabelsOk n) (hlow : lowName n = n) (ht : t ≤ 65535) (h6 : t ≠ 6)
    (hb : st.buffer.length < 66) (z : Name) :
    Zf.addW (env2 h zone) st ⟨encName n, t, 86400, d⟩ = .ok (true, put st [copy 86400 ⟨false, n, t, d, 86400, z⟩]) := by
  have h1 : lineSent zone ⟨false, n, t, 86400, d⟩ = [copy 86400 ⟨false, n, t, d, 86400, z⟩] := by
    unfold lineSent ZoneLine.stands
    simp only
    rw [if_neg (by omega), if_neg (by omega), ZoneLine.given, hlow]
    rfl
  rw [← h1]
  refine addW_put (e := ⟨false, n, t, 86400, d⟩) st ⟨⟨hl, .inl ht, ?_⟩, show (0 : Int) ≤ 86400 by decide⟩ h6 (by rw [h1]; simp; omega)
  intro ho
  have : lowName n = zone := (of_decide_eq_true ho).2.1
  rw [← this]
  exact hlow.symm

theorem synthName2 (hz : ZoneOk h zone) {ip : Nat} (hip : ip < 2 ^ 32) :
    Zf.synthName (env2 h zone) ip = some (encName (synthLabel ip :: zone)) := Zf.synthName_ok hz hip

theorem synthNs_fold2 (hz : ZoneOk h zone) : ∀ (ips : List Nat) (st : St), (∀ ip ∈ ips, ip < 2 ^ 32) → st.buffer.length + ips.length ≤ 66 →
    ips.foldlM (Zf.makeSynthNs (env2 h zone)) st = .ok (put st
      ((ips.map fun ip => (⟨false, zone, 2, encName (synthLabel ip :: zone), 86400, zone⟩ : Given)).map (copy 86400)))
  | [], st, _, _ => by simp [put_nil]
  | ip :: ips, st, hi, hb => by
    simp at hb
    rw [List.foldlM_cons, Zf.makeSynthNs, synthName2 hz (hi ip (List.mem_cons_self ..))]
    simp only
    rw [show (env2 h zone).zone = encName zone from rfl, addW_made st hz.labels hz.low (by omega) (by decide) (by omega) zone, Res.ok_bind]
    simp only
    rw [Res.ok_bind, synthNs_fold2 hz ips _ (fun x hx => hi x (List.mem_cons_of_mem _ hx)) (by rw [put_length]; simp; omega), put_put]
    rfl

theorem synthIp_fold2 (hz : ZoneOk h zone) : ∀ (ips : List Nat) (st : St), (∀ ip ∈ ips, ip < 2 ^ 32) → st.buffer.length + ips.length ≤ 66 →
    ips.foldlM (Zf.makeSynthIp (env2 h zone)) st = .ok (put st
      ((ips.map fun ip => (⟨false, synthLabel ip :: zone, 1, num32 ip, 86400, zone⟩ : Given)).map (copy 86400)))
  | [], st, _, _ => by simp [put_nil]
  | ip :: ips, st, hi, hb => by
    simp at hb
    rw [List.foldlM_cons, Zf.makeSynthIp, synthName2 hz (hi ip (List.mem_cons_self ..))]
    simp only
    rw [addW_made st (Zf.synthLabels_ok hz ip).1 (Zf.synthLabels_ok hz ip).2 (by omega) (by decide) (by omega) zone, Res.ok_bind]
    simp only
    rw [Res.ok_bind, synthIp_fold2 hz ips _ (fun x hx => hi x (List.mem_cons_of_mem _ hx)) (by rw [put_length]; simp; omega), put_put]
    rfl

theorem madeNs_length : (madeNs h zone).length = 2 * h.chosen.length := by
  unfold madeNs
  simp
  omega

theorem synthNs2 (hz : ZoneOk h zone) (st : St) (hb : st.buffer.length + 2 * h.chosen.length ≤ 66) :
    Zf.synthNs (env2 h zone) st = .ok (put st ((madeNs h zone).map (copy 86400))) := by
  have hall : ∀ (ips : List Nat), (∀ ip ∈ ips, ip < 2 ^ 32) → ips = h.chosen → Zf.synthAll (env2 h zone) ips st =
      .ok (put st ((madeNs h zone).map (copy 86400))) := by
    intro ips hi he
    subst he
    rw [Zf.synthAll, synthNs_fold2 hz _ _ hi (by omega), Res.ok_bind, synthIp_fold2 hz _ _ hi (by rw [put_length]; simp; omega), put_put]
    unfold madeNs
    simp only [List.map_append]
    rfl
  have hips := hz.ips
  have hp : (fun ip => !Zf.isPrivate ip) = fun ip => decide (¬ (ip / 2 ^ 24 = 127 ∨ ip / 2 ^ 24 = 10 ∨ ip / 2 ^ 20 = 172 * 16 + 1 ∨ ip / 2 ^ 16 = 192 * 256 + 168)) := by
    funext ip
    unfold Zf.isPrivate
    rw [Bool.eq_iff_iff]
    simp
    tauto
  have hl : (fun ip => !Zf.isLocalhost ip) = fun ip => decide (¬ (ip / 2 ^ 24 = 127)) := by
    funext ip
    unfold Zf.isLocalhost
    simp
  have henv : (env2 h zone).ips = h.ips := rfl
  unfold Zf.synthNs
  rw [henv, hp, hl]
  by_cases h0 : 0 ∈ h.ips
  · rw [if_pos (by rw [List.any_eq_true]; exact ⟨0, h0, by simp⟩)]
    have : h.chosen = [] := by unfold Host.chosen; simp only; rw [if_pos h0]
    unfold madeNs
    simp [this, put_nil]
  · rw [if_neg (by rw [List.any_eq_true]; rintro ⟨x, hx, h1⟩; simp at h1; exact h0 (h1 ▸ hx))]
    by_cases h1 : ∃ ip ∈ h.ips, ¬ (ip / 2 ^ 24 = 127 ∨ ip / 2 ^ 24 = 10 ∨ ip / 2 ^ 20 = 172 * 16 + 1 ∨ ip / 2 ^ 16 = 192 * 256 + 168)
    · rw [if_pos (by rw [List.any_eq_true]; obtain ⟨x, hx, h2⟩ := h1; exact ⟨x, hx, decide_eq_true h2⟩)]
      refine hall _ (fun ip hip => hips ip (List.mem_filter.1 hip).1) ?_
      unfold Host.chosen
      simp only
      rw [if_neg h0, if_pos h1]
    · rw [if_neg (by rw [List.any_eq_true]; rintro ⟨x, hx, h2⟩; exact h1 ⟨x, hx, of_decide_eq_true h2⟩)]
      by_cases h3 : ∃ ip ∈ h.ips, ¬ (ip / 2 ^ 24 = 127)
      · rw [if_pos (by rw [List.any_eq_true]; obtain ⟨x, hx, h2⟩ := h3; exact ⟨x, hx, decide_eq_true h2⟩)]
        refine hall _ (fun ip hip => hips ip (List.mem_filter.1 hip).1) ?_
        unfold Host.chosen
        simp only
        rw [if_neg h0, if_neg h1, if_pos h3]
      · rw [if_neg (by rw [List.any_eq_true]; rintro ⟨x, hx, h2⟩; exact h3 ⟨x, hx, of_decide_eq_true h2⟩)]
        refine hall _ hips ?_
        unfold Host.chosen
        simp only
        rw [if_neg h0, if_neg h1, if_neg h3]

/-! ## One record -/

/-- What a record puts into the buffer, and whether the name servers of the zone may still come, and have been seen. -/
def emit (h : Host) (zone : Name) (i ns : Bool) (e : ZoneLine) : List Copy × Bool × Bool :=
  if e.type = 6 then ([], i, ns)
  else if e.own zone then (if i then (lineSent zone e, true, true) else ([], false, ns))
  else ((if i ∧ ns = false then (madeNs h zone).map (copy 86400) else []) ++ lineSent zone e, false, ns)

theorem lineSent_length (e : ZoneLine) : (lineSent zone e).length ≤ 2 := by
  unfold lineSent ZoneLine.stands
  simp only
  split
  · simp
  · split <;> simp

theorem emit_length (i ns : Bool) (e : ZoneLine) :
    (emit h zone i ns e).1.length ≤ 2 + (if i ∧ ns = false then 2 * h.chosen.length else 0) := by
  have := lineSent_length (zone := zone) e
  have hm := madeNs_length (h := h) (zone := zone)
  unfold emit
  split
  · simp
  · split
    · cases i <;> simp <;> omega
    · split <;> simp <;> omega

theorem addRest_emit (hz : ZoneOk h zone) {e : ZoneLine} (he : LineOk zone e) (h6 : e.type ≠ 6) (n : Nat) (i ns : Bool) (b o : List Rr)
    (hb : b.length + (emit h zone i ns e).1.length ≤ 66) :
    ∃ x, Zf.addRest (env2 h zone) ⟨n, i, ns, b, o⟩ (toRr e) =
      .ok (x, put ⟨n, (emit h zone i ns e).2.1, (emit h zone i ns e).2.2, b, o⟩ (emit h zone i ns e).1) := by
  have hm3 : ¬ (env2 h zone).method = 3 := by simp [env2]
  have hm2 : ¬ (env2 h zone).method ≠ 2 := by simp [env2]
  have htop : ((toRr e).type = 2 ∧ (toRr e).query = (env2 h zone).zone) ↔ e.own zone = true := Zf.top_iff hz he.toZoneLineOk
  unfold emit at hb ⊢
  rw [if_neg h6] at hb ⊢
  unfold Zf.addRest
  simp only
  by_cases ho : e.own zone = true
  · rw [if_pos ho] at hb ⊢
    obtain ⟨t1, t2⟩ := htop.2 ho
    cases i with
    | false =>
      have hs : (if ns = false ∧ false = true ∧ (toRr e).type = 2 ∧ (toRr e).query = (env2 h zone).zone then
          ({ rrnum := n, inNs := false, nses := true, buffer := b, out := o } : St)
          else { rrnum := n, inNs := false, nses := ns, buffer := b, out := o }) = ⟨n, false, ns, b, o⟩ :=
        if_neg (fun hc => absurd hc.2.1 (by decide))
      rw [hs]
      rw [if_pos ⟨rfl, t1, t2⟩]
      exact ⟨false, by rw [if_neg (by decide)]; simp only [put_nil]⟩
    | true =>
      rw [if_pos rfl] at hb ⊢
      have hs : (if ns = false ∧ true = true ∧ (toRr e).type = 2 ∧ (toRr e).query = (env2 h zone).zone then
          ({ rrnum := n, inNs := true, nses := true, buffer := b, out := o } : St)
          else { rrnum := n, inNs := true, nses := ns, buffer := b, out := o }) = ⟨n, true, true, b, o⟩ := by
        cases ns with
        | true => rw [if_neg (by simp)]
        | false => rw [if_pos ⟨rfl, rfl, t1, t2⟩]
      rw [hs]
      rw [if_neg (by simp), if_neg (by simp), if_neg (fun hc => hm3 hc.2), if_neg (by rw [t1, t2]; simp)]
      exact ⟨true, addW_put _ he h6 hb⟩
  · rw [if_neg ho] at hb ⊢
    have hnt : ¬ ((toRr e).type = 2 ∧ (toRr e).query = (env2 h zone).zone) := fun hc => ho (htop.1 hc)
    have hs : (if ns = false ∧ i = true ∧ (toRr e).type = 2 ∧ (toRr e).query = (env2 h zone).zone then
        ({ rrnum := n, inNs := i, nses := true, buffer := b, out := o } : St)
        else { rrnum := n, inNs := i, nses := ns, buffer := b, out := o }) = ⟨n, i, ns, b, o⟩ :=
      if_neg (fun hc => hnt hc.2.2)
    rw [hs]
    rw [if_neg (fun hc => hnt hc.2), if_neg (fun hc => hm3 hc.2.2), if_neg (fun hc => hm3 hc.2)]
    cases i with
    | false =>
      rw [if_neg (by simp)] at hb
      rw [if_neg (by simp), if_neg (by simp)]
      exact ⟨true, addW_put _ he h6 hb⟩
    | true =>
      have hnt' : (toRr e).type ≠ 2 ∨ ¬ (toRr e).query = (env2 h zone).zone := by
        by_cases h2 : (toRr e).type = 2
        · exact .inr fun hc => hnt ⟨h2, hc⟩
        · exact .inl h2
      rw [if_pos ⟨rfl, hnt'⟩]
      cases ns with
      | true =>
        rw [if_neg (by simp)] at hb
        rw [if_neg (by simp), if_neg (by simp)]
        rw [Res.ok_bind, if_neg (by simp), if_neg hm2, Res.ok_bind]
        exact ⟨true, addW_put ⟨n, false, true, b, o⟩ he h6 hb⟩
      | false =>
        rw [if_pos ⟨rfl, rfl⟩] at hb
        rw [if_pos ⟨rfl, hm3⟩, if_pos (⟨rfl, rfl⟩ : true = true ∧ false = false)]
        rw [List.length_append, List.length_map, madeNs_length] at hb
        rw [synthNs2 hz _ (show b.length + _ ≤ 66 by omega), Res.ok_bind, if_neg (fun hc => hm3 hc.2), if_neg hm2, Res.ok_bind]
        have := addW_put (h := h) (put ⟨n, false, false, b, o⟩ ((madeNs h zone).map (copy 86400))) he h6
          (by rw [put_length, List.length_map, madeNs_length]; exact (Nat.add_assoc ..).symm ▸ hb)
        rw [put_put] at this
        exact ⟨true, this⟩

theorem addRr_emit (hz : ZoneOk h zone) {e : ZoneLine} (he : LineOk zone e) (n : Nat) (hn : 1 ≤ n) (i ns : Bool) (b o : List Rr)
    (hb : b.length + (emit h zone i ns e).1.length ≤ 66) :
    ∃ x, Zf.addRr (env2 h zone) ⟨n, i, ns, b, o⟩ (toRr e) =
      .ok (x, put ⟨n + 1, (emit h zone i ns e).2.1, (emit h zone i ns e).2.2, b, o⟩ (emit h zone i ns e).1) := by
  have hn1 : ¬ n + 1 = 1 := by omega
  unfold Zf.addRr
  simp only
  rw [if_neg (fun hc => hn1 hc.1), if_neg (fun hc => hn1 hc.1), if_neg hn1]
  by_cases h6 : e.type = 6
  · rw [if_pos (show (toRr e).type = 6 from h6)]
    unfold emit
    rw [if_pos h6]
    exact ⟨false, by simp only [put_nil]⟩
  · rw [if_neg (show ¬ (toRr e).type = 6 from h6)]
    exact addRest_emit hz he h6 _ _ _ _ _ hb

theorem addRr_first (hz : ZoneOk h zone) {e : ZoneLine} (he : LineOk zone e) (h6 : e.type ≠ 6)
    (hb : 1 + (emit h zone true false e).1.length ≤ 66) :
    ∃ x, Zf.addRr (env2 h zone) St.init (toRr e) =
      .ok (x, put ⟨1, (emit h zone true false e).2.1, (emit h zone true false e).2.2, [rrOf (copy 86400 (madeSoa h zone))], []⟩ (emit h zone true false e).1) := by
  have hm3 : ¬ (env2 h zone).method = 3 := by simp [env2]
  have h0 : Zf.addRr (env2 h zone) St.init (toRr e) = Zf.addRest (env2 h zone) (Zf.synthSoa (env2 h zone) ⟨1, true, false, [], []⟩).2 (toRr e) := by
    unfold Zf.addRr
    simp only
    rw [if_pos ⟨rfl, h6, hm3⟩]
    rfl
  have h1 : Zf.synthSoa (env2 h zone) ⟨1, true, false, [], []⟩ = _ := Zf.synthSoa_ok hz
  rw [h0, h1]
  exact addRest_emit hz he h6 1 true false _ _ hb

theorem addRr_soa2 {e : ZoneLine} (he : LineOk zone e) (h6 : e.type = 6) (hs : e.star = false) :
    Zf.addRr (env2 h zone) St.init (toRr e) = .ok (true, ⟨1, true, false, [rrOf ⟨e.name, 6, e.ttl.toNat, e.data⟩], []⟩) := by
  have h6' : (toRr e).type = 6 := h6
  unfold Zf.addRr
  simp only
  rw [if_neg (fun hc => hc.2.1 h6'), if_neg (fun hc => hc.2.1 h6'), if_pos (show St.init.rrnum + 1 = 1 from rfl)]
  have : (⟨(toRr e).query, 6, (toRr e).ttl, (toRr e).data⟩ : Rr) = rrOf ⟨e.name, 6, e.ttl.toNat, e.data⟩ := by
    unfold rrOf toRr base
    simp [hs, Int.toNat_of_nonneg he.ttl]
  rw [this]
  rfl

/-! ## Records one after the other -/

/-- What records put into the buffer. -/
def emits (h : Host) (zone : Name) : (i ns : Bool) → List ZoneLine → List Copy
  | _, _, [] => []
  | i, ns, e :: l => (emit h zone i ns e).1 ++ emits h zone (emit h zone i ns e).2.1 (emit h zone i ns e).2.2 l

/-- Whether the name servers of the zone may still come, and have been seen, after the records. -/
def after (zone : Name) : (i ns : Bool) → List ZoneLine → Bool × Bool
  | i, ns, [] => (i, ns)
  | i, ns, e :: l => after zone (emit ⟨[], 0, none⟩ zone i ns e).2.1 (emit ⟨[], 0, none⟩ zone i ns e).2.2 l

theorem emit_after (h' : Host) (i ns : Bool) (e : ZoneLine) : (emit h zone i ns e).2 = (emit h' zone i ns e).2 := by
  unfold emit
  split
  · rfl
  split
  · rfl
  · rfl

theorem emits_append : ∀ (a b : List ZoneLine) (i ns : Bool),
    emits h zone i ns (a ++ b) = emits h zone i ns a ++ emits h zone (after zone i ns a).1 (after zone i ns a).2 b
  | [], _, _, _ => rfl
  | e :: a, b, i, ns => by
    rw [List.cons_append, emits, emits, emits_append a b, after, emit_after (h := h) ⟨[], 0, none⟩, List.append_assoc]

theorem after_append : ∀ (a b : List ZoneLine) (i ns : Bool),
    after zone i ns (a ++ b) = after zone (after zone i ns a).1 (after zone i ns a).2 b
  | [], _, _, _ => rfl
  | e :: a, b, i, ns => by rw [List.cons_append, after, after, after_append a b]

theorem rest6 {e : ZoneLine} (h6 : e.type = 6) (l : List ZoneLine) : restOf (e :: l) = restOf l := by
  simp [restOf, h6]

theorem restCons {e : ZoneLine} (h6 : ¬ e.type = 6) (l : List ZoneLine) : restOf (e :: l) = e :: restOf l := by
  simp [restOf, h6]

theorem emit6 {e : ZoneLine} (h6 : e.type = 6) (i ns : Bool) : emit h zone i ns e = ([], i, ns) := by
  unfold emit
  rw [if_pos h6]

theorem emitOwn {e : ZoneLine} (h6 : ¬ e.type = 6) (ho : e.own zone = true) (i ns : Bool) :
    emit h zone i ns e = if i then (lineSent zone e, true, true) else ([], false, ns) := by
  unfold emit
  rw [if_neg h6, if_pos ho]

theorem emitOther {e : ZoneLine} (h6 : ¬ e.type = 6) (ho : ¬ e.own zone = true) (i ns : Bool) :
    emit h zone i ns e = ((if i ∧ ns = false then (madeNs h zone).map (copy 86400) else []) ++ lineSent zone e, false, ns) := by
  unfold emit
  rw [if_neg h6, if_neg ho]

theorem emits_false : ∀ (l : List ZoneLine) (ns : Bool), emits h zone false ns l = ((restOf l).filter fun e => !e.own zone).flatMap (lineSent zone)
  | [], _ => rfl
  | e :: l, ns => by
    rw [emits]
    by_cases h6 : e.type = 6
    · rw [emit6 h6, rest6 h6]
      exact emits_false l ns
    · rw [restCons h6, List.filter_cons]
      by_cases ho : e.own zone = true
      · rw [emitOwn h6 ho, if_neg (by decide), if_neg (by simp [ho])]
        exact emits_false l ns
      · rw [emitOther h6 ho, if_neg (by simp), if_pos (by simpa using ho), List.flatMap_cons]
        exact congrArg _ (emits_false l ns)

theorem emits_true : ∀ (l : List ZoneLine), emits h zone true true l = (topOf zone l).flatMap (lineSent zone) ++ (othersOf zone l).flatMap (lineSent zone)
  | [] => rfl
  | e :: l => by
    have ih := emits_true l
    have hf := emits_false (h := h) (zone := zone) l true
    rw [emits]
    unfold topOf othersOf at ih ⊢
    by_cases h6 : e.type = 6
    · rw [emit6 h6, rest6 h6]
      exact ih
    · rw [restCons h6, List.takeWhile_cons, List.dropWhile_cons]
      by_cases ho : e.own zone = true
      · rw [emitOwn h6 ho, if_pos rfl, if_pos ho, if_pos ho, List.flatMap_cons, List.append_assoc]
        exact congrArg _ ih
      · rw [emitOther h6 ho, if_neg ho, if_neg ho, if_neg (by simp), List.filter_cons, if_pos (by simpa using ho), List.flatMap_cons]
        exact congrArg _ hf

theorem emits_body : ∀ (l : List ZoneLine), emits h zone true false l = bodySent h zone l
  | [] => rfl
  | e :: l => by
    have ih := emits_body l
    have ht := emits_true (h := h) (zone := zone) l
    have hf := emits_false (h := h) (zone := zone) l false
    rw [emits]
    unfold bodySent at ih ⊢
    unfold topOf othersOf at ih ht ⊢
    by_cases h6 : e.type = 6
    · rw [emit6 h6, rest6 h6]
      exact ih
    · rw [restCons h6, List.takeWhile_cons, List.dropWhile_cons]
      by_cases ho : e.own zone = true
      · rw [emitOwn h6 ho, if_pos rfl, if_pos ho, if_pos ho, if_neg (by simp), List.flatMap_cons, List.append_assoc]
        exact congrArg _ ht
      · have hno : (!e.own zone) = true := by simpa using ho
        rw [emitOther h6 ho, if_neg ho, if_neg ho, if_pos (⟨rfl, rfl⟩ : true = true ∧ false = false), List.filter_cons, if_pos hno, if_pos ⟨rfl, by simp⟩,
          List.flatMap_cons, List.append_assoc]
        exact congrArg (fun x => _ ++ (_ ++ x)) hf

theorem emits_length : ∀ (l : List ZoneLine) (i ns : Bool),
    (emits h zone i ns l).length ≤ 2 * l.length + (if i ∧ ns = false then 2 * h.chosen.length else 0)
  | [], _, _ => by simp [emits]
  | e :: l, i, ns => by
    have ih := emits_length l (emit h zone i ns e).2.1 (emit h zone i ns e).2.2
    have hl := lineSent_length (zone := zone) e
    have hm := madeNs_length (h := h) (zone := zone)
    rw [emits, List.length_append, List.length_cons]
    revert ih
    unfold emit
    by_cases h6 : e.type = 6
    · rw [if_pos h6]
      intro ih
      simp only [List.length_nil] at ih ⊢
      omega
    rw [if_neg h6]
    by_cases ho : e.own zone = true
    · rw [if_pos ho]
      cases i
      · intro ih; simp at ih ⊢; omega
      · intro ih; simp at ih ⊢; omega
    · rw [if_neg ho]
      intro ih
      simp only [List.length_append] at ih ⊢
      split
      · simp at ih ⊢
        omega
      · simp at ih ⊢
        omega

end Serve
end Mara
