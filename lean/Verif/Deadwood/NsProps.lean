import Verif.Deadwood.NsModel
import Verif.Deadwood.StrProps
import Verif.Deadwood.DnsStr3Props
import Mathlib.Data.List.Nodup
import Mathlib.Data.Int.ModEq
import Mathlib.Data.List.Perm.Subperm
/-!
# C31: every name server of a list gets its turn
-/

namespace Dw
namespace Ns

open DwStr

/-- What a packed list of servers says: the position and type of each of its records. -/
structure Lists (l : List UInt8) (servers : List (Nat × Nat)) : Prop where
  some : 0 < servers.length
  few : servers.length ≤ 127
  room : 2 + 2 * servers.length ≤ l.length
  kind : l[l.length - 1]? = .some 16 ∨ l[l.length - 1]? = .some 22
  count : l[l.length - 2]? = .some (UInt8.ofNat servers.length)
  hi : ∀ a, ∀ h : a < servers.length, (l[l.length - 4 - 2 * a]?.getD 0).toNat = servers[a].1 / 256
  lo : ∀ a, ∀ h : a < servers.length, (l[l.length - 3 - 2 * a]?.getD 0).toNat = servers[a].1 % 256
  type : ∀ p ∈ servers, l[p.1]? = .some (UInt8.ofNat p.2) ∧ p.2 < 256

/-- Which servers are chosen when the same list is used again and again; `rnd` are the random
numbers available each time. -/
def picks (list : DwStr) (rnd : Nat → List Nat) : Nat → Option Nat → List (Res (Nat × Nat × Nat))
  | 0, _ => []
  | k + 1, current =>
    match nsGetip list current (rnd k) with
    | .ok (r, current) => .ok r :: picks list rnd k current
    | .err => [.err]
    | .ub => [.ub]

/-! ### Reading the list -/

theorem nsrefType_in {s : DwStr} (h : Usable s) {servers : List (Nat × Nat)}
    (L : Lists s.contents servers) {a : Nat} (ha : a < servers.length) :
    nsrefType a s = .ok servers[a] := by
  have room := L.room
  have hhi := L.hi a ha
  have hlo := L.lo a ha
  obtain ⟨ht, ht256⟩ := L.type servers[a] (List.getElem_mem ha)
  have hi := fetchU16_in h (s.contents.length - 4 - 2 * a) (by omega)
  rw [List.getElem?_eq_getElem (by omega)] at hhi hlo
  obtain ⟨hlt, hte⟩ := List.getElem?_eq_some_iff.mp ht
  have e1 : ((s.contents.length - 4 - 2 * a : Nat) : Int) - s.contents.length + 1 =
      -(2 + (a : Int) * 2) - 1 := by omega
  have e2 : s.contents.length - 4 - 2 * a + 1 = s.contents.length - 3 - 2 * a := by omega
  have h2 := hi.2
  simp only [e1, e2, Option.getD_some] at h2 hhi hlo
  rw [hhi, hlo] at h2
  have e3 : servers[a].1 / 256 * 256 + servers[a].1 % 256 = servers[a].1 := by omega
  rw [e3] at h2
  have cl := h.clen
  unfold nsrefType
  rw [h2, Res.ok_bind, if_neg (by omega), (fetchU8_in h servers[a].1 hlt).1, Res.ok_bind, hte]
  simp only [Res.ok.injEq]
  rw [UInt8.toNat_ofNat_of_lt' ht256]

theorem favour_lt (list : DwStr) {count : Nat} (h : 0 < count) (rnd : List Nat) :
    ∀ out, out < count → favour list count rnd out < count := by
  induction rnd with
  | nil => intro out ho; exact ho
  | cons r rnd ih =>
    intro out _
    have hr : r % count < count := Nat.mod_lt _ h
    unfold favour
    simp only
    split
    · split
      · exact hr
      · exact ih _ hr
    · exact ih _ hr

theorem nsGetip_in {s : DwStr} (h : Usable s) {servers : List (Nat × Nat)}
    (L : Lists s.contents servers) (current : Option Nat) (rnd : List Nat) :
    ∃ a, ∃ ha : a < servers.length, ∃ current',
      chooseNs current servers.length rnd s = (a, current') ∧
      nsGetip s current rnd = .ok ((a, servers[a]?.getD (0, 0)), current') := by
  have room := L.room
  have hs := L.some
  have hf := L.few
  have f1 := fetchU8_in h (s.contents.length - 1) (by omega)
  have f2 := fetchU8_in h (s.contents.length - 2) (by omega)
  rw [show ((s.contents.length - 1 : Nat) : Int) - s.contents.length = -1 by omega] at f1
  rw [show ((s.contents.length - 2 : Nat) : Int) - s.contents.length = -2 by omega] at f2
  have k := L.kind
  have c := L.count
  rw [List.getElem?_eq_getElem (by omega)] at k c
  have c' : s.contents[s.contents.length - 2].toNat = servers.length := by
    rw [Option.some.inj c, UInt8.toNat_ofNat_of_lt' (show _ < 256 by omega)]
  have k' : s.contents[s.contents.length - 1].toNat = 16 ∨ s.contents[s.contents.length - 1].toNat = 22 := by
    rcases k with k | k <;> rw [Option.some.inj k] <;> decide
  have hc : (chooseNs current servers.length rnd s).1 < servers.length := by
    unfold chooseNs
    split
    · exact hs
    · cases current with
      | none => exact favour_lt _ hs _ _ hs
      | some c => exact Nat.mod_lt _ hs
  refine ⟨_, hc, (chooseNs current servers.length rnd s).2, rfl, ?_⟩
  unfold nsGetip
  rw [f1.2, Res.ok_bind, if_neg (by omega), f2.2, Res.ok_bind, c', if_neg (by omega)]
  simp only [nsrefType_in h L hc, Res.ok_bind, List.getElem?_eq_getElem hc, Option.getD_some]

/-! ### Going round -/

theorem jump_inj {count : Nat} (h0 : 0 < count) (h : count < 173) {o i j : Nat} (hij : i < j) (hj : j < count) :
    (o + 173 * i) % count ≠ (o + 173 * j) % count := by
  intro e
  have hd : count ∣ (o + 173 * j) - (o + 173 * i) := (Nat.modEq_iff_dvd' (by omega)).mp e
  rw [show (o + 173 * j) - (o + 173 * i) = 173 * (j - i) by omega] at hd
  have co : ∀ c < 173, 0 < c → Nat.Coprime c 173 := by decide +kernel
  have := Nat.le_of_dvd (by omega) ((co count h h0).dvd_of_dvd_mul_left hd)
  omega

/-- The choices of the same list, one after the other. -/
theorem picks_eq {s : DwStr} (h : Usable s) {servers : List (Nat × Nat)} (L : Lists s.contents servers)
    (rnd : Nat → List Nat) : ∀ k c, picks s rnd k (some c) =
      (List.range k).map fun i => .ok (if servers.length = 1 then 0 else (c + 173 * (i + 1)) % servers.length,
        servers[if servers.length = 1 then 0 else (c + 173 * (i + 1)) % servers.length]?.getD (0, 0)) := by
  have hs := L.some
  intro k
  induction k with
  | zero => intro c; rfl
  | succ k ih =>
    intro c
    obtain ⟨a, ha, cur, hch, hget⟩ := nsGetip_in h L (some c) (rnd k)
    unfold picks
    rw [hget]
    simp only
    rw [List.range_succ_eq_map, List.map_cons, List.map_map]
    unfold chooseNs at hch
    by_cases h1 : servers.length = 1
    · rw [if_pos (by omega)] at hch
      obtain ⟨rfl, rfl⟩ := Prod.mk.inj hch
      rw [ih]
      simp only [h1, if_true, Function.comp_def]
    · rw [if_neg (by omega)] at hch
      simp only [Prod.mk.injEq] at hch
      obtain ⟨rfl, rfl⟩ := hch
      rw [ih]
      simp only [if_neg h1, Function.comp_def]
      have e : ∀ i, ((c + 173) % servers.length + 173 * (i + 1)) % servers.length =
          (c + 173 * (i.succ + 1)) % servers.length := by
        intro i
        rw [Nat.mod_add_mod]
        congr 1
        omega
      simp only [e]

/-- **C31**: whatever server was used last (or none yet), whatever the random numbers, when a list
of servers is used as often as it has servers, each of them is chosen exactly once. -/
theorem every_server_tried {s : DwStr} (h : Usable s) {servers : List (Nat × Nat)}
    (L : Lists s.contents servers) (current : Option Nat) (rnd : Nat → List Nat) :
    ∃ order : List Nat, order.Perm (List.range servers.length) ∧
      picks s rnd servers.length current =
        order.map fun a => .ok (a, servers[a]?.getD (0, 0)) := by
  have hs := L.some
  have hf := L.few
  -- the order in which they come after a first one
  have key : ∀ o, ∃ order : List Nat, order.Perm (List.range servers.length) ∧
      order = (List.range servers.length).map fun i =>
        if servers.length = 1 then 0 else (o + 173 * i) % servers.length := by
    intro o
    refine ⟨_, ?_, rfl⟩
    have hnd : ((List.range servers.length).map fun i =>
        if servers.length = 1 then 0 else (o + 173 * i) % servers.length).Nodup := by
      rw [List.nodup_map_iff_inj_on List.nodup_range]
      intro i hi j hj e
      rw [List.mem_range] at hi hj
      by_cases h1 : servers.length = 1
      · omega
      · simp only [if_neg h1] at e
        rcases Nat.lt_trichotomy i j with hlt | heq | hgt
        · exact absurd e (jump_inj hs (by omega) hlt hj)
        · exact heq
        · exact absurd e.symm (jump_inj hs (by omega) hgt hi)
    refine (List.subperm_of_subset hnd ?_).perm_of_length_le (by simp)
    intro x hx
    obtain ⟨i, -, rfl⟩ := List.mem_map.mp hx
    rw [List.mem_range]
    split
    · exact hs
    · exact Nat.mod_lt _ hs
  cases current with
  | some c =>
    obtain ⟨order, hp, rfl⟩ := key (c + 173)
    refine ⟨_, hp, ?_⟩
    rw [picks_eq h L, List.map_map]
    apply List.map_congr_left
    intro i _
    simp only [Function.comp_def]
    rw [show c + 173 * (i + 1) = c + 173 + 173 * i by omega]
  | none =>
    obtain ⟨n, hn⟩ : ∃ n, servers.length = n + 1 := ⟨servers.length - 1, by omega⟩
    obtain ⟨a, ha, cur, hch, hget⟩ := nsGetip_in h L none (rnd n)
    obtain ⟨order, hp, rfl⟩ := key a
    refine ⟨_, hp, ?_⟩
    rw [hn]
    unfold picks
    rw [hget]
    simp only
    rw [List.map_map, List.range_succ_eq_map, List.map_cons, List.map_map]
    unfold chooseNs at hch
    by_cases h1 : servers.length = 1
    · have : n = 0 := by omega
      subst this
      rw [if_pos (by omega)] at hch
      obtain ⟨rfl, rfl⟩ := Prod.mk.inj hch
      simp only [picks, List.range_zero, List.map_nil, Function.comp_def]
      simp only [Nat.zero_add, if_true]
    · rw [if_neg (by omega)] at hch
      simp only [Prod.mk.injEq] at hch
      obtain ⟨rfl, rfl⟩ := hch
      have ha' := ha
      rw [picks_eq h L]
      simp only [← hn, if_neg h1, Function.comp_def]
      congr 1
      rw [Nat.mul_zero, Nat.add_zero, Nat.mod_eq_of_lt ha']

/-- A list of three servers, two with addresses. -/
def exampleList : DwStr := DwStr.ofBytes
  ([3, 99, 111, 109, 0] ++ [1, 10, 0, 0, 1] ++ [1, 10, 0, 0, 2] ++ [2, 1, 97, 0] ++
    [0, 15, 0, 10, 0, 5] ++ [3, 16])

example : Lists exampleList.contents [(5, 1), (10, 1), (15, 2)] where
  some := by decide
  few := by decide
  room := by decide
  kind := by decide
  count := by decide
  hi := by decide
  lo := by decide
  type := by decide

example : Usable exampleList := ofBytes_usable (by decide)

example :
    picks exampleList (fun _ => [11, 4]) 3 none =
    [.ok (1, 10, 1), .ok (0, 5, 1), .ok (2, 15, 2)] := by decide +kernel

end Ns
end Dw
