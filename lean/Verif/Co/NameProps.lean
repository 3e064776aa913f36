import Verif.Co.NameLemmas
/-!
# coLunacyDNS: names between packets and scripts
-/

namespace Co
open Dw (Res)
open Spec (encName encLabels shown dotted LabelsOk SameName)

/-! ## From text to packets -/

theorem lower_recase (b : Bool) (c : UInt8) : Spec.lower (recase b c) = Spec.lower c := by
  have h : ∀ b : Bool, ∀ n : Fin 256, Spec.lower (recase b (UInt8.ofNat n.val)) = Spec.lower (UInt8.ofNat n.val) := by decide +kernel
  have := h b ⟨c.toNat, c.toNat_lt⟩
  simpa using this

theorem poke_ok {buf : List UInt8} {i : Nat} (v : UInt8) (h : i < buf.length) : poke buf i v = .ok (buf.set i v) := if_pos h

theorem set_mid (x : List UInt8) (y : UInt8) (z : List UInt8) (v : UInt8) (p : Nat) (h : x.length = p) : (x ++ y :: z).set p v = x ++ v :: z := by
  subst h; simp

/-- A label is copied. -/
theorem copy_label (rnd : Nat → Bool) (a : Nat) (l z : List UInt8) (len : Nat) (x y : List UInt8) (rest : List UInt8) (k : Nat)
    (hd : ∀ c ∈ l, c ≠ 46) (hl : len + l.length ≤ 63) (hp : x.length + l.length < a) (hy : y.length = l.length) :
    ∃ l' k', labelLoop rnd a (l ++ 46 :: z) x.length len (x ++ (y ++ rest)) k =
        .ok (some (46 :: z, x.length + l.length, len + l.length, x ++ (l' ++ rest), k')) ∧
      l'.length = l.length ∧ l'.map Spec.lower = l.map Spec.lower := by
  induction l generalizing len x y k with
  | nil =>
    have : y = [] := by cases y <;> simp_all
    subst this
    exact ⟨[], k, by simp [labelLoop], rfl, rfl⟩
  | cons c l ih =>
    obtain ⟨y0, y, rfl⟩ : ∃ y0 y', y = y0 :: y' := by cases y <;> simp_all
    simp only [List.length_cons] at hl hp hy
    have hc := hd c (by simp)
    obtain ⟨l', k', e, e2, e3⟩ := ih (len + 1) (x ++ [recase (rnd k) c]) y (if isLetter c then k + 1 else k) (fun d hd' => hd d (by simp [hd']))
      (by omega) (by simp; omega) (by omega)
    refine ⟨recase (rnd k) c :: l', k', ?_, by simp [e2], by simp [e3, lower_recase]⟩
    rw [List.cons_append, labelLoop, if_pos ⟨by omega, hc, by omega⟩]
    simp only [List.cons_append]
    rw [poke_ok _ (by simp), set_mid _ _ _ _ _ rfl]
    show (if 64 ≤ len + 1 ∨ l ++ 46 :: z = [] ∨ a ≤ x.length + 1 then _ else _) = _
    rw [if_neg (by simp; omega)]
    simp only [List.length_append, List.length_singleton, List.append_assoc, List.singleton_append] at e
    rw [e]
    simp only [List.length_cons]
    rw [show x.length + 1 + l.length = x.length + (l.length + 1) by omega, show len + 1 + l.length = len + (l.length + 1) by omega]

theorem dotted_len (ls : List (List UInt8)) : (dotted ls).length = (encLabels ls).length := by
  induction ls with
  | nil => rfl
  | cons l ls ih => rw [Spec.dotted_cons, Spec.encLabels_cons]; simp [ih]; omega

theorem same_len {a b : List (List UInt8)} (h : SameName a b) : (encLabels a).length = (encLabels b).length := by
  unfold SameName at h
  induction a generalizing b with
  | nil => cases b <;> simp_all
  | cons l a ih =>
    cases b with
    | nil => simp at h
    | cons m b =>
      simp only [List.map_cons, List.cons.injEq] at h
      have hl := congrArg List.length h.1
      simp only [List.length_map] at hl
      simp only [Spec.encLabels_cons, List.length_append, List.length_cons, ih h.2, hl]

theorem name_step {rnd : Nat → Bool} {a fuel : Nat} {z z' : List UInt8} {label p p' len k k' : Nat} {buf buf' : List UInt8}
    (h : labelLoop rnd a z p 0 buf k = .ok (some (46 :: z', p', len, buf', k'))) (hl : label < buf'.length) :
    nameLoop rnd a (fuel + 1) z label p buf k =
      if z' = [] then poke (buf'.set label (UInt8.ofNat len)) p' 0 >>= fun b => .ok (some (b.take (p' + 1), k'))
      else if len = 0 then .ok (some ((buf'.set label (UInt8.ofNat len)).take (p' + 1), k'))
      else nameLoop rnd a fuel z' p' (p' + 1) (buf'.set label (UInt8.ofNat len)) k' := by
  rw [nameLoop, h]
  show (poke buf' label _ >>= _) = _
  rw [poke_ok _ hl]
  rfl

/-- The labels that are left are copied. -/
theorem copy_labels (rnd : Nat → Bool) (a : Nat) (ls : List (List UInt8)) (hn : ls ≠ []) (hls : LabelsOk ls) (hd : ∀ l ∈ ls, ∀ c ∈ l, c ≠ 46) :
    ∀ (fuel : Nat) (w y : List UInt8) (k : Nat), ls.length ≤ fuel → w.length + (dotted ls).length < a → w.length + y.length = a + 2 →
      ∃ ls' k', nameLoop rnd a fuel (dotted ls) w.length (w.length + 1) (w ++ y) k = .ok (some (w ++ encName ls', k')) ∧ SameName ls' ls := by
  induction ls with
  | nil => simp at hn
  | cons l ls ih =>
    intro fuel w y k hf hp hy
    have lok := hls.head
    obtain ⟨fuel, rfl⟩ : ∃ f, fuel = f + 1 := ⟨fuel - 1, by simp at hf; omega⟩
    rw [Spec.dotted_cons] at hp ⊢
    simp only [List.length_append, List.length_cons] at hp hf
    obtain ⟨y0, y, rfl⟩ : ∃ y0 y', y = y0 :: y' := by cases y with | nil => simp at hy; omega | cons a b => exact ⟨a, b, rfl⟩
    simp only [List.length_cons] at hy
    obtain ⟨m, rest, rfl, hm⟩ : ∃ m rest, y = m ++ rest ∧ m.length = l.length := ⟨y.take l.length, y.drop l.length, by simp, by simp; omega⟩
    simp only [List.length_append] at hy
    obtain ⟨l', k', e, e2, e3⟩ := copy_label rnd a l (dotted ls) 0 (w ++ [y0]) m rest k (hd l (by simp)) (by omega) (by simp; omega) hm
    simp only [List.length_append, List.length_singleton, List.append_assoc, List.singleton_append] at e
    rw [name_step e (by simp), set_mid _ _ _ _ _ rfl, Nat.zero_add]
    obtain ⟨r0, rest, rfl⟩ : ∃ r0 r', rest = r0 :: r' := by cases rest with | nil => simp at hy; omega | cons a b => exact ⟨a, b, rfl⟩
    by_cases hl0 : ls = []
    · subst hl0
      rw [if_pos (show dotted [] = [] from rfl)]
      have e4 : w ++ UInt8.ofNat l.length :: (l' ++ r0 :: rest) = (w ++ UInt8.ofNat l.length :: l') ++ r0 :: rest := by simp
      rw [e4, poke_ok _ (by simp [e2]; omega), set_mid _ _ _ _ _ (by simp [e2]; omega)]
      refine ⟨[l'], k', ?_, by simp [SameName, e3]⟩
      show Res.ok (some ((w ++ UInt8.ofNat l.length :: l' ++ (0 :: rest)).take _, k')) = _
      rw [show w ++ UInt8.ofNat l.length :: l' ++ (0 :: rest) = (w ++ encName [l']) ++ rest by simp [encName, Spec.encLabels, e2]]
      rw [List.take_left' (by simp [encName, Spec.encLabels, e2]; omega)]
    · have ne : dotted ls ≠ [] := by cases ls with | nil => simp at hl0 | cons a b => rw [Spec.dotted_cons]; simp
      rw [if_neg ne, if_neg (by omega)]
      have e4 : w ++ UInt8.ofNat l.length :: (l' ++ r0 :: rest) = (w ++ UInt8.ofNat l'.length :: l') ++ r0 :: rest := by simp [e2]
      obtain ⟨ls', k2, h1, h2⟩ := ih hl0 hls.tail (fun x hx => hd x (by simp [hx])) fuel (w ++ UInt8.ofNat l'.length :: l') (r0 :: rest) k'
        (by omega) (by simp [e2]; omega) (by simp [e2] at hy ⊢; omega)
      refine ⟨l' :: ls', k2, ?_, by unfold SameName at h2 ⊢; simp [e3, h2]⟩
      rw [e4]
      have pe : w.length + 1 + l.length = (w ++ UInt8.ofNat l'.length :: l').length := by simp [e2]; omega
      rw [pe, h1, Spec.encName_cons]
      simp

/-- The name a script asks other servers for is the name it wrote, except for the case of letters.  (Text of up to 256
characters that ends with a dot.) -/
theorem asked_name (rnd : Nat → Bool) (junk : List UInt8) (ls : List (List UInt8)) (hn : ls ≠ []) (hls : LabelsOk ls)
    (hd : ∀ l ∈ ls, ∀ c ∈ l, c ≠ 46) (hlen : (dotted ls).length ≤ 256) :
    ∃ ls' k, human2DNS rnd junk (dotted ls) = .ok (some (encName ls', k)) ∧ SameName ls' ls := by
  unfold human2DNS
  rw [Nat.min_eq_left hlen]
  have bl : ((junk ++ List.replicate ((dotted ls).length + 1 + 2) 0).take ((dotted ls).length + 1 + 2)).length = (dotted ls).length + 1 + 2 := by simp
  simp only
  rw [poke_ok _ (by omega)]
  have nl : ls.length ≤ (dotted ls).length := by
    clear hn hls hd hlen bl
    induction ls with
    | nil => simp
    | cons l ls ih => rw [Spec.dotted_cons]; simp; omega
  obtain ⟨ls', k, h1, h2⟩ := copy_labels rnd ((dotted ls).length + 1) ls hn hls hd ((dotted ls).length + 1) []
    (((junk ++ List.replicate ((dotted ls).length + 1 + 2) 0).take ((dotted ls).length + 1 + 2)).set ((dotted ls).length + 1) 0) 0
    (by omega) (by simp) (by simp)
  exact ⟨ls', k, h1, h2⟩

/-- "maradns.samiam.org.", with the case of the second, the fourth, ... letter changed. -/
example : human2DNS (fun k => k % 2 = 1) [] [109, 97, 46, 111, 114, 103, 46] = .ok (some ([2, 109, 65, 3, 111, 82, 103, 0], 5)) := by decide

/-- ... meets the assumptions of the theorem. -/
example : ∃ ls' k, human2DNS (fun k => k % 2 = 1) [] (dotted [[109, 97], [111, 114, 103]]) = .ok (some (encName ls', k)) ∧
    SameName ls' [[109, 97], [111, 114, 103]] :=
  asked_name _ _ _ (by decide) (by unfold LabelsOk; decide) (by decide) (by decide)

/-! ## Whatever the text, memory is respected -/

theorem label_safe (rnd : Nat → Bool) (a : Nat) (z : List UInt8) (p len : Nat) (buf : List UInt8) (k : Nat) (hb : buf.length = a + 2) (hp : p ≤ a) :
    labelLoop rnd a z p len buf k = .ok none ∨
    ∃ z' p' len' buf' k', labelLoop rnd a z p len buf k = .ok (some (z', p', len', buf', k')) ∧
      buf'.length = a + 2 ∧ p' + z'.length = p + z.length ∧ p' ≤ a ∧ (len' = len ∨ p' + 1 ≤ a) ∧ p ≤ p' ∧ len ≤ len' := by
  induction z generalizing p len buf k with
  | nil => exact .inr ⟨[], p, len, buf, k, rfl, hb, rfl, hp, .inl rfl, Nat.le_refl _, Nat.le_refl _⟩
  | cons c z ih =>
    rw [labelLoop]
    by_cases h : p < a ∧ c ≠ 46 ∧ len < 64
    · rw [if_pos h, poke_ok _ (by omega)]
      simp only [Bind.bind, Res.bind]
      by_cases h2 : 64 ≤ len + 1 ∨ z = [] ∨ a ≤ p + 1
      · rw [if_pos h2]; exact .inl rfl
      · rw [if_neg h2]
        rcases ih (p + 1) (len + 1) (buf.set p (recase (rnd k) c)) (if isLetter c then k + 1 else k) (by simpa using hb) (by omega) with h3 | h3
        · exact .inl h3
        · obtain ⟨z', p', len', buf', k', e, h4, h5, h6, h7, h8, h9⟩ := h3
          refine .inr ⟨z', p', len', buf', k', e, h4, by simp only [List.length_cons]; omega, h6, ?_, by omega, by omega⟩
          rcases h7 with h7 | h7
          · have : p' + z'.length = p + 1 + z.length := h5
            by_cases hpa : p' + 1 ≤ a
            · exact .inr hpa
            · exfalso
              have : p' = a := by omega
              -- nothing more was read
              have key : ∀ (z : List UInt8) (p len : Nat) (buf : List UInt8) (k : Nat) (r : List UInt8 × Nat × Nat × List UInt8 × Nat),
                  labelLoop rnd a z p len buf k = .ok (some r) → r.2.1 + len = p + r.2.2.1 := by
                intro z
                induction z with
                | nil => intro p len buf k r hr; simp only [labelLoop, Res.ok.injEq, Option.some.injEq] at hr; subst hr; rfl
                | cons d z ihz =>
                  intro p len buf k r hr
                  rw [labelLoop] at hr
                  by_cases hh : p < a ∧ d ≠ 46 ∧ len < 64
                  · rw [if_pos hh] at hr
                    unfold poke at hr
                    by_cases hq : p < buf.length
                    · rw [if_pos hq] at hr
                      change (if 64 ≤ len + 1 ∨ z = [] ∨ a ≤ p + 1 then Res.ok none else labelLoop _ _ _ _ _ _ _) = _ at hr
                      by_cases hw : 64 ≤ len + 1 ∨ z = [] ∨ a ≤ p + 1
                      · rw [if_pos hw] at hr; cases hr
                      · rw [if_neg hw] at hr
                        have := ihz _ _ _ _ _ hr
                        omega
                    · rw [if_neg hq] at hr; cases hr
                  · rw [if_neg hh] at hr
                    simp only [Res.ok.injEq, Option.some.injEq] at hr; subst hr; rfl
              have := key _ _ _ _ _ _ e
              simp only at this
              omega
          · exact .inr h7
    · rw [if_neg h]
      exact .inr ⟨_, p, len, buf, k, rfl, hb, rfl, hp, .inl rfl, Nat.le_refl _, Nat.le_refl _⟩

theorem name_safe (rnd : Nat → Bool) (a : Nat) (fuel : Nat) (z : List UInt8) (label : Nat) (buf : List UInt8) (k : Nat)
    (hf : z.length < fuel) (hb : buf.length = a + 2) (hl : label + 1 ≤ a) :
    ∃ r, nameLoop rnd a fuel z label (label + 1) buf k = .ok r ∧ ∀ x, r = some x → x.1.length ≤ a + 1 := by
  induction fuel generalizing z label buf k with
  | zero => omega
  | succ fuel ih =>
    rw [nameLoop]
    rcases label_safe rnd a z (label + 1) 0 buf k hb hl with e | ⟨z', p', len', buf', k', e, h1, h2, h3, h4, h5, h6⟩
    · rw [e]; exact ⟨none, rfl, by simp⟩
    · rw [e]
      show ∃ r, (poke buf' label _ >>= _) = Res.ok r ∧ _
      rw [poke_ok _ (by omega)]
      have bl : (buf'.set label (UInt8.ofNat len')).length = a + 2 := by simpa using h1
      show ∃ r, (match z' with
        | 46 :: z =>
          if z = [] then do
            let buf ← poke (buf'.set label (UInt8.ofNat len')) p' 0
            .ok (some (buf.take (p' + 1), k'))
          else if len' = 0 then .ok (some ((buf'.set label (UInt8.ofNat len')).take (p' + 1), k'))
          else nameLoop rnd a fuel z p' (p' + 1) (buf'.set label (UInt8.ofNat len')) k'
        | _ => .ok none) = Res.ok r ∧ _
      split
      · rename_i z2
        simp only [List.length_cons] at h2
        by_cases hz : z2 = []
        · rw [if_pos hz, poke_ok _ (by omega)]
          refine ⟨_, rfl, ?_⟩
          intro x hx
          cases hx
          simp; omega
        · rw [if_neg hz]
          by_cases hl0 : len' = 0
          · rw [if_pos hl0]
            refine ⟨_, rfl, ?_⟩
            intro x hx
            cases hx
            simp; omega
          · rw [if_neg hl0]
            exact ih z2 p' _ k' (by omega) bl (by omega)
      · exact ⟨none, rfl, by simp⟩

/-- No text, however long or malformed, makes the conversion write or read outside its memory; what it gives fits a packet. -/
theorem asking_is_safe (rnd : Nat → Bool) (junk z : List UInt8) :
    ∃ r, human2DNS rnd junk z = .ok r ∧ ∀ x, r = some x → x.1.length ≤ 258 := by
  unfold human2DNS
  show ∃ r, (poke _ _ _ >>= _) = Res.ok r ∧ _
  rw [poke_ok _ (by simp)]
  cases z with
  | nil => exact ⟨none, by simp [nameLoop, labelLoop, poke, Bind.bind, Res.bind], by simp⟩
  | cons c z =>
    obtain ⟨r, h1, h2⟩ := name_safe rnd (min (c :: z).length 256 + 1) ((c :: z).length + 1) (c :: z) 0
      (((junk ++ List.replicate (min (c :: z).length 256 + 1 + 2) 0).take (min (c :: z).length 256 + 1 + 2)).set (min (c :: z).length 256 + 1) 0) 0
      (by omega) (by simp) (by simp)
    refine ⟨r, h1, fun x hx => ?_⟩
    have := h2 x hx
    omega

/-- With two dots one after the other, a byte goes out that nobody wrote: whatever was in memory. -/
theorem asked_name_junk (x : UInt8) :
    human2DNS (fun _ => false) [0, 0, 0, x] [97, 46, 46, 98, 46] = .ok (some ([1, 97, 0, x], 1)) := by
  rfl

end Co
