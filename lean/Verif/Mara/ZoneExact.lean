import Verif.Mara.ZoneModel
import Verif.Mara.BigHashLoad
import Verif.Spec.ZoneFile
/-!
# Reading a zone file: lemmas
-/

namespace Mara
namespace Zf

open Dw (Res)
open Spec
open Big (base base_inj)

/-- A record as the parser gives it. -/
def toRr (e : ZoneLine) : Rr := ⟨base e.star e.name, e.type, e.ttl, e.data⟩

/-- A record as it is handed on. -/
def outRr (g : Given) : Rr := ⟨base g.star g.name, g.type, g.ttl, g.data⟩

/-- The server and a zone (not the default zone). -/
def envOf (h : Host) (zone : Name) : Env := ⟨encName zone, 1, h.serial, h.origin, h.ips⟩

/-- Records that the parser can give, with the name of the zone not in capitals in name server records. -/
structure ZoneLineOk (zone : Name) (e : ZoneLine) : Prop where
  labels : LabelsOk e.name
  type : e.type ≤ 65535 ∨ (e.type = 65765 ∧ e.data.length = 4) ∨ (e.type = 65766 ∧ e.data.length = 16)
  written : e.own zone = true → e.name = zone

/-- Zones whose name leaves room for the names made up. -/
structure ZoneOk (h : Host) (zone : Name) : Prop where
  labels : LabelsOk zone
  low : lowName zone = zone
  short : (encName zone).length ≤ 112
  notRoot : zone ≠ []
  origin : ∀ o, h.origin = some o → o.length ≤ 112
  ips : ∀ ip ∈ h.ips, ip < 2 ^ 32

theorem lowByte_eq : lowByte = lower := by
  funext c
  have key : ∀ n : Fin 256, lowByte (UInt8.ofNat n) = lower (UInt8.ofNat n) := by decide +kernel
  have := key ⟨c.toNat, c.toNat_lt⟩
  simpa using this

theorem jsLower_eq : Js.lower = lower := by
  funext c
  have key : ∀ n : Fin 256, Js.lower (UInt8.ofNat n) = lower (UInt8.ofNat n) := by decide +kernel
  have := key ⟨c.toNat, c.toNat_lt⟩
  simpa using this

theorem encName_low {n : Name} (h : LabelsOk n) : (encName n).map lowByte = encName (lowName n) := by
  rw [lowByte_eq, ← jsLower_eq]
  exact Lookup.encName_lower h

theorem base_low {n : Name} (h : LabelsOk n) (star : Bool) : (base star n).map lowByte = base star (lowName n) := by
  unfold base
  cases star
  · simp only [Bool.false_eq_true, if_false]
    exact encName_low h
  · simp only [if_true, List.map_cons, encName_low h]
    rfl

theorem ttl_eq (t : Int) : (if (if t < 60 then 60 else t) > 63072000 then 63072000 else (if t < 60 then 60 else t)) = ((ttlOf t : Nat) : Int) := by
  unfold ttlOf
  by_cases h1 : t < 60
  · rw [if_pos h1, if_neg (by omega), if_pos h1]
    rfl
  · rw [if_neg h1, if_neg h1]
    split
    · rfl
    · omega

theorem process_ok {env : Env} (hm : env.method ≠ 2) (hz : env.zone.length ≤ 125) (st : St) (q : List UInt8) {t : Nat} (ht : t ≤ 65535) (ttl : Int) (d : List UInt8) :
    process env st q t ttl d = (true, { st with out := st.out ++ [⟨q, t, (ttlOf ttl : Nat), d⟩] }) := by
  unfold process handOn
  rw [if_neg hm]
  simp only [ttl_eq]
  rw [if_neg (by omega), if_neg (by omega)]

theorem octet_eq : ∀ b : Fin 256, octet (UInt8.ofNat b) = UInt8.ofNat (decimal b).length :: decimal b ∧ (decimal b).length ≤ 3 ∧
    (decimal b).map lower = decimal b ∧ 1 ≤ (decimal b).length ∧ (0 : UInt8) ∉ decimal b := by decide +kernel

theorem octet_dec (b : UInt8) : octet b = UInt8.ofNat (decimal b.toNat).length :: decimal b.toNat := by
  have := (octet_eq ⟨b.toNat, b.toNat_lt⟩).1
  simpa using this

theorem decimal_ok (b : UInt8) : (decimal b.toNat).length ≤ 3 ∧ (decimal b.toNat).map lower = decimal b.toNat ∧
    1 ≤ (decimal b.toNat).length ∧ (0 : UInt8) ∉ decimal b.toNat := (octet_eq ⟨b.toNat, b.toNat_lt⟩).2

theorem nibble_eq : ∀ n : Fin 16, nibble n = digit n ∧ lower (digit n) = digit n ∧ digit n ≠ 0 := by decide +kernel

theorem encLabels_append (a b : Name) : encLabels (a ++ b) = encLabels a ++ encLabels b := by
  unfold encLabels
  rw [List.flatMap_append]

theorem makePtr_ok {ip : List UInt8} (h : ip.length = 4) : makePtr ip = some (encName (reverse4 ip)) := by
  unfold makePtr
  rw [if_neg (by omega)]
  congr 1
  rw [reverse4, encName, encLabels_append]
  have h1 : ip.reverse.flatMap octet = encLabels (ip.reverse.map fun b => decimal b.toNat) := by
    unfold encLabels
    rw [List.flatMap_map]
    congr 1
    funext b
    exact octet_dec b
  have h2 : encLabels [ascii "in-addr", ascii "arpa"] ++ [0] = [7, 105, 110, 45, 97, 100, 100, 114, 4, 97, 114, 112, 97, 0] := by
    decide +kernel
  rw [h1, List.append_assoc, h2]

theorem makePtr6_ok {ip : List UInt8} (h : ip.length = 16) : makePtr6 ip = some (encName (reverse6 ip)) := by
  unfold makePtr6
  rw [if_neg (by omega)]
  congr 1
  rw [reverse6, encName, encLabels_append]
  have h1 : ip.reverse.flatMap (fun a => [1, nibble (a.toNat % 16), 1, nibble (a.toNat / 16)]) =
      encLabels (ip.reverse.flatMap fun b => [[digit (b.toNat % 16)], [digit (b.toNat / 16)]]) := by
    unfold encLabels
    rw [List.flatMap_assoc]
    congr 1
    funext b
    have hb := b.toNat_lt
    rw [(nibble_eq ⟨b.toNat % 16, by omega⟩).1, (nibble_eq ⟨b.toNat / 16, by omega⟩).1]
    rfl
  have h2 : encLabels [ascii "ip6", ascii "arpa"] ++ [0] = [3, 105, 112, 54, 4, 97, 114, 112, 97, 0] := by
    decide +kernel
  rw [h1, List.append_assoc, h2]

theorem reverse4_ok (ip : List UInt8) : LabelsOk (reverse4 ip) ∧ lowName (reverse4 ip) = reverse4 ip ∧ ∀ l ∈ reverse4 ip, (0 : UInt8) ∉ l := by
  have hall : ∀ l ∈ reverse4 ip, (1 ≤ l.length ∧ l.length ≤ 63) ∧ l.map lower = l ∧ (0 : UInt8) ∉ l := by
    intro l hl
    rcases List.mem_append.1 hl with hl | hl
    · obtain ⟨b, _, rfl⟩ := List.mem_map.1 hl
      obtain ⟨h1, h2, h3, h4⟩ := decimal_ok b
      exact ⟨⟨h3, by omega⟩, h2, h4⟩
    · simp only [List.mem_cons, List.not_mem_nil, or_false] at hl
      rcases hl with rfl | rfl <;> decide +kernel
  refine ⟨fun l hl => (hall l hl).1, ?_, fun l hl => (hall l hl).2.2⟩
  unfold lowName
  conv => rhs; rw [← List.map_id (reverse4 ip)]
  exact List.map_congr_left fun l hl => (hall l hl).2.1

theorem reverse6_ok (ip : List UInt8) : LabelsOk (reverse6 ip) ∧ lowName (reverse6 ip) = reverse6 ip ∧ ∀ l ∈ reverse6 ip, (0 : UInt8) ∉ l := by
  have hall : ∀ l ∈ reverse6 ip, (1 ≤ l.length ∧ l.length ≤ 63) ∧ l.map lower = l ∧ (0 : UInt8) ∉ l := by
    intro l hl
    rcases List.mem_append.1 hl with hl | hl
    · obtain ⟨b, _, hb⟩ := List.mem_flatMap.1 hl
      have hlt := b.toNat_lt
      simp only [List.mem_cons, List.not_mem_nil, or_false] at hb
      have key : ∀ n : Fin 16, (1 ≤ [digit n].length ∧ [digit n].length ≤ 63) ∧ [digit n].map lower = [digit n] ∧ (0 : UInt8) ∉ [digit n] := by
        decide +kernel
      rcases hb with rfl | rfl
      · exact key ⟨b.toNat % 16, by omega⟩
      · exact key ⟨b.toNat / 16, by omega⟩
    · simp only [List.mem_cons, List.not_mem_nil, or_false] at hl
      rcases hl with rfl | rfl <;> decide +kernel
  refine ⟨fun l hl => (hall l hl).1, ?_, fun l hl => (hall l hl).2.2⟩
  unfold lowName
  conv => rhs; rw [← List.map_id (reverse6 ip)]
  exact List.map_congr_left fun l hl => (hall l hl).2.1

variable {h : Host} {zone : Name}

/-- Handing on one record. -/
theorem addW_ok (hz : (encName zone).length ≤ 125) (st : St) {e : ZoneLine} (hl : LabelsOk e.name)
    (ht : e.type ≤ 65535 ∨ (e.type = 65765 ∧ e.data.length = 4) ∨ (e.type = 65766 ∧ e.data.length = 16)) :
    addW (envOf h zone) st (toRr e) = .ok (true, { st with out := st.out ++ (e.stands zone).map outRr }) := by
  have hz' : (envOf h zone).zone.length ≤ 125 := hz
  have hq : (toRr e).query.map lowByte = base e.star (lowName e.name) := base_low hl e.star
  have hname : (if e.star then [95] else []) ++ encName (lowName e.name) = base e.star (lowName e.name) := by
    unfold base
    cases e.star <;> rfl
  unfold addW ZoneLine.stands
  rw [hq]
  simp only [hname]
  rcases ht with ht | ⟨ht, hd⟩ | ⟨ht, hd⟩
  · have h1 : (toRr e).type ≠ 65765 := by show e.type ≠ _; omega
    have h2 : (toRr e).type ≠ 65766 := by show e.type ≠ _; omega
    rw [if_neg h1, if_neg h2, if_neg (show ¬ e.type = 65765 from h1), if_neg (show ¬ e.type = 65766 from h2)]
    rw [process_ok (show (1 : Nat) ≠ 2 by decide) hz' st _ (show (toRr e).type ≤ 65535 from ht)]
    rfl
  · have h1 : (toRr e).type = 65765 := ht
    have h3 : ¬ ((envOf h zone).method = 3) := by simp [envOf]
    rw [if_pos h1, if_neg h3, if_pos ht]
    rw [show makePtr (toRr e).data = _ from makePtr_ok hd]
    simp only
    rw [encName_low (reverse4_ok _).1, (reverse4_ok _).2.1]
    rw [process_ok (show (1 : Nat) ≠ 2 by decide) hz' _ _ (by decide), process_ok (show (1 : Nat) ≠ 2 by decide) hz' _ _ (by decide)]
    simp only [List.append_assoc]
    rfl
  · have h1 : (toRr e).type ≠ 65765 := by show e.type ≠ _; omega
    have h2 : (toRr e).type = 65766 := ht
    have h3 : ¬ ((envOf h zone).method = 3) := by simp [envOf]
    rw [if_neg h1, if_pos h2, if_neg h3, if_neg (show ¬ e.type = 65765 from h1), if_pos ht]
    rw [show makePtr6 (toRr e).data = _ from makePtr6_ok hd]
    simp only
    rw [encName_low (reverse6_ok _).1, (reverse6_ok _).2.1]
    rw [process_ok (show (1 : Nat) ≠ 2 by decide) hz' _ _ (by decide), process_ok (show (1 : Nat) ≠ 2 by decide) hz' _ _ (by decide)]
    simp only [List.append_assoc]
    rfl

/-- A record handed on as it is. -/
theorem addW_given (hz : (encName zone).length ≤ 125) (st : St) {n : Name} {t : Nat} {d : List UInt8} {ttl : Int} {m : Nat}
    (hl : LabelsOk n) (hlow : lowName n = n) (ht : t ≤ 65535) (htt : ttlOf ttl = m) :
    addW (envOf h zone) st ⟨encName n, t, ttl, d⟩ = .ok (true, { st with out := st.out ++ [outRr ⟨false, n, t, d, m, zone⟩] }) := by
  have := addW_ok (h := h) hz st (e := ⟨false, n, t, ttl, d⟩) hl (.inl ht)
  have h1 : (ZoneLine.stands zone ⟨false, n, t, ttl, d⟩) = [⟨false, n, t, d, m, zone⟩] := by
    unfold ZoneLine.stands
    simp only
    rw [if_neg (by omega), if_neg (by omega), ZoneLine.given, hlow, htt]
  rw [h1] at this
  exact this

/-- The label made up for an address. -/
def synthLabel (ip : Nat) : List UInt8 := ascii "synth-ip-" ++ hex8 ip

theorem hex8_ok (ip : Nat) : (hex8 ip).map lower = hex8 ip ∧ (0 : UInt8) ∉ hex8 ip := by
  have k := fun n (hn : n < 16) => nibble_eq ⟨n, hn⟩
  have hm : ∀ c ∈ hex8 ip, lower c = c ∧ c ≠ 0 := by
    intro c hc
    unfold hex8 at hc
    simp only [List.mem_cons, List.not_mem_nil, or_false] at hc
    rcases hc with rfl | rfl | rfl | rfl | rfl | rfl | rfl | rfl <;> exact (k _ (by omega)).2
  constructor
  · conv => rhs; rw [← List.map_id (hex8 ip)]
    exact List.map_congr_left fun c hc => (hm c hc).1
  · intro h0
    exact (hm 0 h0).2 rfl

theorem synthLabel_ok (ip : Nat) : (synthLabel ip).length = 17 ∧ (synthLabel ip).map lower = synthLabel ip ∧ (0 : UInt8) ∉ synthLabel ip := by
  have h1 : (ascii "synth-ip-").length = 9 ∧ (ascii "synth-ip-").map lower = ascii "synth-ip-" ∧ (0 : UInt8) ∉ ascii "synth-ip-" := by
    decide +kernel
  refine ⟨?_, ?_, ?_⟩
  · rw [synthLabel, List.length_append, h1.1]
    rfl
  · rw [synthLabel, List.map_append, h1.2.1, (hex8_ok ip).1]
  · rw [synthLabel, List.mem_append]
    rintro (h | h)
    · exact h1.2.2 h
    · exact (hex8_ok ip).2 h

theorem hex_u32 {ip : Nat} (hip : ip < 2 ^ 32) :
    (u32 ip).flatMap (fun b => [nibble (b.toNat / 16), nibble (b.toNat % 16)]) = hex8 ip := by
  unfold u32 hex8
  simp only [List.flatMap_cons, List.flatMap_nil, List.append_nil, List.cons_append, List.nil_append, UInt8.toNat_ofNat']
  have k := fun n (hn : n < 16) => (nibble_eq ⟨n, hn⟩).1
  simp only at k
  have e1 : ip / 16777216 % 2 ^ 8 / 16 = ip / 2 ^ 28 % 16 := by omega
  have e2 : ip / 16777216 % 2 ^ 8 % 16 = ip / 2 ^ 24 % 16 := by omega
  have e3 : ip / 65536 % 2 ^ 8 / 16 = ip / 2 ^ 20 % 16 := by omega
  have e4 : ip / 65536 % 2 ^ 8 % 16 = ip / 2 ^ 16 % 16 := by omega
  have e5 : ip / 256 % 2 ^ 8 / 16 = ip / 2 ^ 12 % 16 := by omega
  have e6 : ip / 256 % 2 ^ 8 % 16 = ip / 2 ^ 8 % 16 := by omega
  have e7 : ip % 2 ^ 8 / 16 = ip / 16 % 16 := by omega
  have e8 : ip % 2 ^ 8 % 16 = ip % 16 := by omega
  rw [e1, e2, e3, e4, e5, e6, e7, e8]
  rw [k _ (by omega), k _ (by omega), k _ (by omega), k _ (by omega), k _ (by omega), k _ (by omega), k _ (by omega), k _ (by omega)]

theorem encName_ne_root (hz : zone ≠ []) (hl : LabelsOk zone) : encName zone ≠ [0] := by
  cases zone with
  | nil => exact absurd rfl hz
  | cons l n =>
    intro h
    rw [Lookup.encName_cons] at h
    have h1 := congrArg List.length h
    have h2 := Lookup.encName_pos n
    have h3 := hl l (List.mem_cons_self ..)
    simp only [List.length_cons, List.length_append, List.length_nil] at h1
    omega

theorem synthName_ok (hz : ZoneOk h zone) {ip : Nat} (hip : ip < 2 ^ 32) :
    synthName (envOf h zone) ip = some (encName (synthLabel ip :: zone)) := by
  unfold synthName
  rw [if_neg (show ¬ (envOf h zone).zone = [0] from encName_ne_root hz.notRoot hz.labels), hex_u32 hip]
  rfl

theorem synthLabels_ok (hz : ZoneOk h zone) (ip : Nat) : LabelsOk (synthLabel ip :: zone) ∧ lowName (synthLabel ip :: zone) = synthLabel ip :: zone := by
  constructor
  · intro l hl
    rcases List.mem_cons.1 hl with rfl | hl
    · rw [(synthLabel_ok ip).1]
      omega
    · exact hz.labels l hl
  · have := hz.low
    unfold lowName at this ⊢
    rw [List.map_cons, (synthLabel_ok ip).2.1, this]

theorem synthNs_fold (hz : ZoneOk h zone) : ∀ (ips : List Nat) (st : St), (∀ ip ∈ ips, ip < 2 ^ 32) →
    ips.foldlM (makeSynthNs (envOf h zone)) st = .ok { st with out := st.out ++
      (ips.map fun ip => (⟨false, zone, 2, encName (synthLabel ip :: zone), 86400, zone⟩ : Given)).map outRr }
  | [], st, _ => by simp
  | ip :: ips, st, hi => by
    have hs := hz.short
    rw [List.foldlM_cons, makeSynthNs, synthName_ok hz (hi ip (List.mem_cons_self ..))]
    simp only
    rw [show (envOf h zone).zone = encName zone from rfl,
      addW_given (m := 86400) (by omega) st hz.labels hz.low (by omega) rfl, Res.ok_bind]
    simp only
    rw [Res.ok_bind, synthNs_fold hz ips _ (fun x hx => hi x (List.mem_cons_of_mem _ hx))]
    simp

theorem synthIp_fold (hz : ZoneOk h zone) : ∀ (ips : List Nat) (st : St), (∀ ip ∈ ips, ip < 2 ^ 32) →
    ips.foldlM (makeSynthIp (envOf h zone)) st = .ok { st with out := st.out ++
      (ips.map fun ip => (⟨false, synthLabel ip :: zone, 1, num32 ip, 86400, zone⟩ : Given)).map outRr }
  | [], st, _ => by simp
  | ip :: ips, st, hi => by
    have hs := hz.short
    rw [List.foldlM_cons, makeSynthIp, synthName_ok hz (hi ip (List.mem_cons_self ..))]
    simp only
    rw [addW_given (m := 86400) (by omega) st (synthLabels_ok hz ip).1 (synthLabels_ok hz ip).2 (by omega) rfl, Res.ok_bind]
    simp only
    rw [Res.ok_bind, synthIp_fold hz ips _ (fun x hx => hi x (List.mem_cons_of_mem _ hx))]
    simp
    rfl

theorem chosen_sub (ip : Nat) (hi : ip ∈ h.chosen) : ip ∈ h.ips := by
  unfold Host.chosen at hi
  simp only at hi
  split at hi
  · cases hi
  · split at hi
    · exact (List.mem_filter.1 hi).1
    · split at hi
      · exact (List.mem_filter.1 hi).1
      · exact hi

theorem synthNs_ok (hz : ZoneOk h zone) (st : St) :
    synthNs (envOf h zone) st = .ok { st with out := st.out ++ (madeNs h zone).map outRr } := by
  have hall : ∀ (ips : List Nat), (∀ ip ∈ ips, ip < 2 ^ 32) → ips = h.chosen → synthAll (envOf h zone) ips st =
      .ok { st with out := st.out ++ (madeNs h zone).map outRr } := by
    intro ips hi he
    subst he
    rw [synthAll, synthNs_fold hz _ _ hi, Res.ok_bind, synthIp_fold hz _ _ hi]
    unfold madeNs
    simp only [List.map_append, List.append_assoc]
    rfl
  have hips := hz.ips
  have hp : (fun ip => !isPrivate ip) = fun ip => decide (¬ (ip / 2 ^ 24 = 127 ∨ ip / 2 ^ 24 = 10 ∨ ip / 2 ^ 20 = 172 * 16 + 1 ∨ ip / 2 ^ 16 = 192 * 256 + 168)) := by
    funext ip
    unfold isPrivate
    rw [Bool.eq_iff_iff]
    simp
    tauto
  have hl : (fun ip => !isLocalhost ip) = fun ip => decide (¬ (ip / 2 ^ 24 = 127)) := by
    funext ip
    unfold isLocalhost
    simp
  have henv : (envOf h zone).ips = h.ips := rfl
  unfold synthNs
  rw [henv, hp, hl]
  by_cases h0 : 0 ∈ h.ips
  · rw [if_pos (by rw [List.any_eq_true]; exact ⟨0, h0, by simp⟩)]
    have : h.chosen = [] := by unfold Host.chosen; simp only; rw [if_pos h0]
    unfold madeNs
    simp [this]
  · rw [if_neg (by rw [List.any_eq_true]; rintro ⟨x, hx, h1⟩; simp at h1; exact h0 (h1 ▸ hx))]
    by_cases h1 : ∃ ip ∈ h.ips, ¬ (ip / 2 ^ 24 = 127 ∨ ip / 2 ^ 24 = 10 ∨ ip / 2 ^ 20 = 172 * 16 + 1 ∨ ip / 2 ^ 16 = 192 * 256 + 168)
    · rw [if_pos (by rw [List.any_eq_true]; obtain ⟨x, hx, h2⟩ := h1; exact ⟨x, hx, decide_eq_true h2⟩)]
      refine hall _ (fun ip hip => hips ip (List.mem_filter.1 hip).1) ?_
      unfold Host.chosen
      simp only
      rw [if_neg h0, if_pos h1]
    · rw [if_neg (by rw [List.any_eq_true]; rintro ⟨x, hx, h2⟩; exact h1 ⟨x, hx, of_decide_eq_true h2⟩)]
      by_cases h3 : ∃ ip ∈ h.ips, ¬ (ip / 2 ^ 24 = 127)
      · rw [if_pos (by rw [List.any_eq_true]; obtain ⟨x, hx, h2⟩ := h3; exact ⟨x, hx, decide_eq_true h2⟩)]
        refine hall _ (fun ip hip => hips ip (List.mem_filter.1 hip).1) ?_
        unfold Host.chosen
        simp only
        rw [if_neg h0, if_neg h1, if_pos h3]
      · rw [if_neg (by rw [List.any_eq_true]; rintro ⟨x, hx, h2⟩; exact h3 ⟨x, hx, of_decide_eq_true h2⟩)]
        refine hall _ hips ?_
        unfold Host.chosen
        simp only
        rw [if_neg h0, if_neg h1, if_neg h3]

end Zf
end Mara
