import Verif.Deadwood.DepthModel
import Mathlib.Tactic.SplitIfs
/-!
# Helper lemmas about the depth count
-/

namespace Dw
namespace Depth

@[simp] theorem upd_same (t : Nat → Rem) (n : Nat) (r : Rem) : upd t n r n = r := by simp [upd]

theorem upd_ne (t : Nat → Rem) {n m : Nat} (r : Rem) (h : m ≠ n) : upd t n r m = t m := by
  simp [upd, h]

/-- What the counters say between two events. -/
def Good (r : Rem) : Prop :=
  r.depth ≤ 84 ∧ (r.used = true → 1 ≤ r.tries ∧ 3 * r.gen + r.kids + r.tries ≤ r.depth)

/-- The same before the first attempt. -/
def Fresh (r : Rem) : Prop :=
  r.used = true ∧ r.sock = false ∧ r.kids = 0 ∧ r.tries = 0 ∧ 3 * r.gen ≤ r.depth

theorem good_empty : Good Rem.empty := by simp [Good, Rem.empty]

/-- Only depths changed, and only upwards. -/
def Deeper (t t' : Nat → Rem) : Prop :=
  ∀ m, ∃ d, t' m = { t m with depth := d } ∧ (t m).depth ≤ d

theorem Deeper.refl (t : Nat → Rem) : Deeper t t := fun m => ⟨(t m).depth, rfl, Nat.le_refl _⟩

theorem Deeper.trans {a b c : Nat → Rem} (h : Deeper a b) (h' : Deeper b c) : Deeper a c := by
  intro m
  obtain ⟨d, hd, hle⟩ := h m
  obtain ⟨e, he, hle'⟩ := h' m
  rw [hd] at he hle'
  exact ⟨e, he, Nat.le_trans hle hle'⟩

theorem deeper_upd (t : Nat → Rem) (n d : Nat) (h : (t n).depth ≤ d) :
    Deeper t (upd t n { t n with depth := d }) := by
  intro m
  by_cases e : m = n
  · subst e; exact ⟨d, by simp, h⟩
  · exact ⟨(t m).depth, by rw [upd_ne _ _ e], Nat.le_refl _⟩

theorem deeper_good {t t' : Nat → Rem} (h : Deeper t t') {m : Nat} (g : Good (t m))
    (hb : (t' m).depth ≤ 84) : Good (t' m) := by
  obtain ⟨d, hd, hle⟩ := h m
  rw [hd] at hb ⊢
  exact ⟨hb, fun hu => ⟨(g.2 hu).1, Nat.le_trans (g.2 hu).2 hle⟩⟩

/-- The loop over the ancestors only makes depths larger, and none larger than 84. -/
theorem bubble_deeper (new : Nat) : ∀ fuel conn here t, (∀ m, (t m).depth ≤ 84) →
    (t new).depth = here → here ≤ 84 →
    Deeper t (bubble new fuel conn here t).1 ∧ ∀ m, ((bubble new fuel conn here t).1 m).depth ≤ 84 := by
  intro fuel
  induction fuel with
  | zero => intro conn here t hb _ _; exact ⟨Deeper.refl t, hb⟩
  | succ fuel ih =>
    intro conn here t hb hn hh
    unfold bubble
    split
    · cases hp : (t conn).parent with
      | none => exact ⟨Deeper.refl t, hb⟩
      | some p =>
        simp only
        by_cases hd : (t p).depth > 83
        · rw [if_pos hd]; exact ⟨Deeper.refl t, hb⟩
        · rw [if_neg hd]
          have hbump : bump t p p = { t p with depth := (t p).depth + 1 } := by simp [bump]
          have D1 : Deeper t (bump t p) := deeper_upd t p _ (by omega)
          have B1 : ∀ m, (bump t p m).depth ≤ 84 := by
            intro m
            by_cases e : m = p
            · subst e; rw [hbump]; simp only; omega
            · unfold bump; rw [upd_ne _ _ e]; exact hb m
          have Dp : ∀ m, (t m).depth ≤ (bump t p m).depth := by
            intro m
            obtain ⟨d, hd, hle⟩ := D1 m
            rw [hd]; exact hle
          by_cases hlt : (bump t p p).depth < here
          · rw [if_pos hlt]
            have D2 := deeper_upd (bump t p) p here (by omega)
            have hne : new ≠ p := by
              intro e; subst e
              have := Dp new; omega
            have hn2 : (upd (bump t p) p { bump t p p with depth := here } new).depth = here := by
              rw [upd_ne _ _ hne]; unfold bump; rw [upd_ne _ _ hne]; exact hn
            obtain ⟨h1, h2⟩ := ih p here _ (by
              intro m
              by_cases e : m = p
              · subst e; rw [upd_same]; exact hh
              · rw [upd_ne _ _ e]; exact B1 m) hn2 hh
            exact ⟨(D1.trans D2).trans h1, h2⟩
          · rw [if_neg hlt]
            have hge : (bump t p new).depth ≤ (bump t p p).depth := by
              by_cases e : new = p
              · rw [e]; exact Nat.le_refl _
              · have e2 : bump t p new = t new := by unfold bump; rw [upd_ne _ _ e]
                rw [e2, hn]; omega
            have D2 := deeper_upd (bump t p) new (bump t p p).depth hge
            have B2 : ∀ m, (upd (bump t p) new { bump t p new with depth := (bump t p p).depth } m).depth ≤ 84 := by
              intro m
              by_cases e : m = new
              · rw [e, upd_same]; exact B1 p
              · rw [upd_ne _ _ e]; exact B1 m
            obtain ⟨h1, h2⟩ := ih p (bump t p p).depth _ B2 (by rw [upd_same]) (B1 p)
            exact ⟨(D1.trans D2).trans h1, h2⟩
    · exact ⟨Deeper.refl t, hb⟩

theorem findFree_spec {s : S} {c : Nat} (h : findFree s = some c) :
    (s.t c).used = false ∧ (s.t c).sock = false := by
  unfold findFree at h
  have := List.find?_some h
  simpa using this

/-- Results of a sub-query go to the request that wants them. -/
def Links (t : Nat → Rem) : Prop :=
  ∀ b p, (t b).linked = true → (t b).parent = some p → (t p).child = some b →
    (t b).wanted = (t p).serial

/-- What an attempt to connect request `n` leaves alone. -/
structure Kept (n : Nat) (s s' : S) : Prop where
  size : s'.size = s.size
  log : s'.log = s.log
  same : ∀ m, (s.t m).used = true → (s'.t m).used = true ∧ (s'.t m).serial = (s.t m).serial ∧
    (s'.t m).wanted = (s.t m).wanted ∧ (s'.t m).gen = (s.t m).gen
  other : ∀ m, m ≠ n → (s.t m).used = true → (s'.t m).child = (s.t m).child

theorem deeper_links {t t' : Nat → Rem} (h : Deeper t t') (l : Links t) : Links t' := by
  intro b p
  obtain ⟨d, hd, -⟩ := h b
  obtain ⟨e, he, -⟩ := h p
  rw [hd, he]
  exact l b p

/-- What is known when a call for request `n` returns. -/
structure After (n : Nat) (s s' : S) : Prop where
  kept : Kept n s s'
  links : Links s'.t
  good : ∀ m, m ≠ n → Good (s'.t m)

theorem Deeper.kept {s : S} {t : Nat → Rem} (n : Nat) (h : Deeper s.t t) : Kept n s { s with t := t } where
  size := rfl
  log := rfl
  same m hu := by
    obtain ⟨d, hd, -⟩ := h m
    simp only [hd]; simp [hu]
  other m _ _ := by
    obtain ⟨d, hd, -⟩ := h m
    simp only [hd]

theorem Kept.trans {n : Nat} {a b c : S} (h : Kept n a b) (h' : Kept n b c) : Kept n a c where
  size := h'.size.trans h.size
  log := h'.log.trans h.log
  same m hu := by
    obtain ⟨u, e1, e2, e3⟩ := h.same m hu
    obtain ⟨u', f1, f2, f3⟩ := h'.same m u
    exact ⟨u', f1.trans e1, f2.trans e2, f3.trans e3⟩
  other m hm hu := (h'.other m hm (h.same m hu).1).trans (h.other m hm hu)

/-- What the call that connects a new request must do. -/
def ConnOk (conn : Nat → S → S) : Prop :=
  ∀ n s, Links s.t → (∀ m, m ≠ n → Good (s.t m)) → Fresh (s.t n) →
    After n s (conn n s) ∧ (((conn n s).t n).sock = true → Good ((conn n s).t n))

theorem gluelessNew_after {kind : Nat} {conn : Nat → S → S} (hc : ConnOk conn) {n : Nat} {s : S}
    (hl : Links s.t) (hg : ∀ m, Good (s.t m)) (hu : (s.t n).used = true) :
    After n s (gluelessNew kind conn n s) ∧ Good ((gluelessNew kind conn n s).t n) := by
  unfold gluelessNew
  by_cases hd : (s.t n).depth ≥ 83
  · rw [if_pos hd]
    refine ⟨⟨?_, hl, fun m _ => hg m⟩, hg n⟩
    exact (Deeper.refl s.t).kept n
  rw [if_neg hd]
  simp only
  have D0 : Deeper s.t (bump s.t n) := deeper_upd s.t n _ (by omega)
  have B0 : ∀ m, (bump s.t n m).depth ≤ 84 := by
    intro m
    unfold bump
    by_cases e : m = n
    · subst e; rw [upd_same]; simp only; omega
    · rw [upd_ne _ _ e]; exact (hg m).1
  obtain ⟨D1, B1⟩ := bubble_deeper n 120 n (bump s.t n n).depth (bump s.t n) B0 rfl (B0 n)
  have hdn : (s.t n).depth + 1 ≤ ((bubble n 120 n (bump s.t n n).depth (bump s.t n)).1 n).depth := by
    obtain ⟨d, hd, hle⟩ := D1 n
    rw [hd]
    have : (bump s.t n n).depth = (s.t n).depth + 1 := by simp [bump]
    simp only; omega
  generalize hbub : bubble n 120 n (bump s.t n n).depth (bump s.t n) = bb at D1 B1 hdn
  obtain ⟨t1, go⟩ := bb
  simp only at D1 B1 hdn
  have D := D0.trans D1
  have G1 : ∀ m, Good (t1 m) := fun m => deeper_good D (hg m) (B1 m)
  have L1 := deeper_links D hl
  have K1 := D.kept n
  cases go with
  | false => exact ⟨⟨K1, L1, fun m _ => G1 m⟩, G1 n⟩
  | true =>
    simp only
    have slack : 3 * (t1 n).gen + (t1 n).kids + (t1 n).tries + 1 ≤ (t1 n).depth ∧ 1 ≤ (t1 n).tries ∧
        (t1 n).used = true := by
      obtain ⟨d, hd, -⟩ := D n
      rw [hd] at hdn ⊢
      simp only at hdn ⊢
      have := (hg n).2 hu
      exact ⟨by omega, this.1, hu⟩
    obtain ⟨sl, str, hu1⟩ := slack
    cases hf : findFree { s with t := t1 } with
    | none => exact ⟨⟨K1, L1, fun m _ => G1 m⟩, G1 n⟩
    | some c =>
      simp only
      obtain ⟨cu, cs⟩ := findFree_spec hf
      simp only at cu cs
      have hcn : c ≠ n := by rintro rfl; rw [hu1] at cu; exact absurd cu (by decide)
      -- the state in which the new request is connected
      generalize hs2 : ({ s with
        t := upd (upd t1 n { t1 n with kids := (t1 n).kids + 1 }) c { Rem.empty with
          used := true, depth := (t1 n).depth + 1, serial := s.next, wanted := (t1 n).serial,
          gen := (t1 n).gen + 1 },
        next := s.next + 1 } : S) = s2
      have tn : s2.t n = { t1 n with kids := (t1 n).kids + 1 } := by
        rw [← hs2]; simp only; rw [upd_ne _ _ hcn.symm, upd_same]
      have tc : s2.t c = { Rem.empty with
          used := true, depth := (t1 n).depth + 1, serial := s.next, wanted := (t1 n).serial,
          gen := (t1 n).gen + 1 } := by
        rw [← hs2]; simp only [upd_same]
      have to : ∀ m, m ≠ n → m ≠ c → s2.t m = t1 m := by
        intro m h1 h2
        rw [← hs2]; simp only; rw [upd_ne _ _ h2, upd_ne _ _ h1]
      have sz : s2.size = s.size := by rw [← hs2]
      have lg : s2.log = s.log := by rw [← hs2]
      have G2 : ∀ m, m ≠ c → Good (s2.t m) := by
        intro m hm
        by_cases e : m = n
        · subst e; rw [tn]
          exact ⟨(G1 m).1, fun _ => ⟨str, by simp only; omega⟩⟩
        · rw [to m e hm]; exact G1 m
      have F2 : Fresh (s2.t c) := by
        rw [tc]
        refine ⟨rfl, rfl, rfl, rfl, ?_⟩
        show 3 * ((t1 n).gen + 1) ≤ (t1 n).depth + 1
        omega
      have L2 : Links s2.t := by
        intro b p hb hp hch
        by_cases eb : b = c
        · rw [eb, tc] at hb; simp [Rem.empty] at hb
        by_cases ep : p = c
        · rw [ep, tc] at hch; simp [Rem.empty] at hch
        have e1 : (s2.t b).linked = (t1 b).linked ∧ (s2.t b).parent = (t1 b).parent ∧
            (s2.t b).wanted = (t1 b).wanted := by
          by_cases e : b = n
          · subst e; rw [tn]; exact ⟨rfl, rfl, rfl⟩
          · rw [to b e eb]; exact ⟨rfl, rfl, rfl⟩
        have e2 : (s2.t p).child = (t1 p).child ∧ (s2.t p).serial = (t1 p).serial := by
          by_cases e : p = n
          · subst e; rw [tn]; exact ⟨rfl, rfl⟩
          · rw [to p e ep]; exact ⟨rfl, rfl⟩
        rw [e1.2.2, e2.2]
        exact L1 b p (e1.1 ▸ hb) (e1.2.1 ▸ hp) (e2.1 ▸ hch)
      obtain ⟨⟨K3, L3, G3⟩, hsock⟩ := hc c s2 L2 G2 F2
      generalize conn c s2 = s3 at K3 L3 G3 hsock
      have usedn2 : (s2.t n).used = true := by rw [tn]; exact hu1
      have usedc2 : (s2.t c).used = true := by rw [tc]
      have K12 : ∀ m, (s.t m).used = true → (s2.t m).used = true ∧ (s2.t m).serial = (s.t m).serial ∧
          (s2.t m).wanted = (s.t m).wanted ∧ (s2.t m).gen = (s.t m).gen ∧ (s2.t m).child = (s.t m).child := by
        intro m hm
        obtain ⟨d, hdm, -⟩ := D m
        have hmc : m ≠ c := by
          rintro rfl
          rw [hdm] at cu
          rw [hm] at cu; exact absurd cu (by decide)
        by_cases e : m = n
        · rw [e] at hdm hm ⊢; rw [tn, hdm]; exact ⟨hm, rfl, rfl, rfl, rfl⟩
        · rw [to m e hmc, hdm]; exact ⟨hm, rfl, rfl, rfl, rfl⟩
      generalize ht4 : upd s3.t n { s3.t n with child := some c } = t4
      have t4n : t4 n = { s3.t n with child := some c } := by rw [← ht4, upd_same]
      have t4o : ∀ m, m ≠ n → t4 m = s3.t m := by intro m hm; rw [← ht4, upd_ne _ _ hm]
      have t4c : t4 c = s3.t c := t4o c hcn
      -- the result, whatever becomes of the place of the new request
      have fin : ∀ rc : Rem, Good rc →
          (rc = Rem.empty ∨ rc = { s3.t c with linked := true, kind := kind, parent := some n }) →
          After n s { s3 with t := upd t4 c rc } ∧ Good (upd t4 c rc n) := by
        intro rc grc hrc
        have un : upd t4 c rc n = { s3.t n with child := some c } := by rw [upd_ne _ _ hcn.symm, t4n]
        have uo : ∀ m, m ≠ n → m ≠ c → upd t4 c rc m = s3.t m := by
          intro m h1 h2; rw [upd_ne _ _ h2, t4o m h1]
        have gn : Good (s3.t n) := G3 n hcn.symm
        refine ⟨⟨⟨K3.size.trans sz, K3.log.trans lg, ?_, ?_⟩, ?_, ?_⟩, ?_⟩
        · intro m hm
          obtain ⟨a1, a2, a3, a4, -⟩ := K12 m hm
          obtain ⟨b1, b2, b3, b4⟩ := K3.same m a1
          have hmc : m ≠ c := by
            rintro rfl
            obtain ⟨d, hd, -⟩ := D m
            rw [hd] at cu; rw [hm] at cu; exact absurd cu (by decide)
          by_cases e : m = n
          · subst e; simp only [un]; exact ⟨b1, b2.trans a2, b3.trans a3, b4.trans a4⟩
          · simp only [uo m e hmc]; exact ⟨b1, b2.trans a2, b3.trans a3, b4.trans a4⟩
        · intro m hmn hm
          obtain ⟨a1, a2, a3, a4, a5⟩ := K12 m hm
          have hmc : m ≠ c := by
            rintro rfl
            obtain ⟨d, hd, -⟩ := D m
            rw [hd] at cu; rw [hm] at cu; exact absurd cu (by decide)
          simp only [uo m hmn hmc]
          exact (K3.other m hmc a1).trans a5
        · intro b p hb hp hch
          simp only at hb hp hch ⊢
          by_cases eb : b = c
          · rw [eb, upd_same] at hb hp ⊢
            rcases hrc with e | e
            · rw [e] at hb; simp [Rem.empty] at hb
            · rw [e] at hp
              simp only [Option.some.injEq] at hp
              rw [← hp, un, e]
              show (s3.t c).wanted = (s3.t n).serial
              rw [(K3.same c usedc2).2.2.1, (K3.same n usedn2).2.1, tc, tn]
          · rw [upd_ne _ _ eb] at hb hp ⊢
            by_cases ep : p = n
            · rw [ep, un] at hch
              simp only [Option.some.injEq] at hch
              exact absurd hch.symm eb
            · have hb' : (s3.t b).linked = true ∧ (s3.t b).parent = some p ∧ (t4 b).wanted = (s3.t b).wanted := by
                by_cases e : b = n
                · subst e; rw [t4n] at hb hp ⊢; exact ⟨hb, hp, rfl⟩
                · rw [t4o b e] at hb hp ⊢; exact ⟨hb, hp, rfl⟩
              rw [hb'.2.2]
              by_cases ec : p = c
              · rw [ec, upd_same] at hch ⊢
                rcases hrc with e | e
                · rw [e] at hch; simp [Rem.empty] at hch
                · rw [e] at hch ⊢
                  exact L3 b c hb'.1 (ec ▸ hb'.2.1) hch
              · rw [upd_ne _ _ ec, t4o p ep] at hch ⊢
                exact L3 b p hb'.1 hb'.2.1 hch
        · intro m hm
          simp only
          by_cases e : m = c
          · rw [e, upd_same]; exact grc
          · rw [uo m hm e]; exact G3 m e
        · rw [un]; exact gn
      by_cases hs : (t4 c).sock = true
      · rw [if_pos hs]
        rw [t4c] at hs ⊢
        exact fin _ (hsock hs) (Or.inr rfl)
      · rw [if_neg hs]
        exact fin _ good_empty (Or.inl rfl)

/-- The state in which a server is contacted. -/
def trying (n : Nat) (s : S) : S :=
  { s with t := upd (bump s.t n) n { bump s.t n n with tries := (bump s.t n n).tries + 1 } }

theorem trying_n (n : Nat) (s : S) :
    (trying n s).t n = { s.t n with depth := (s.t n).depth + 1, tries := (s.t n).tries + 1 } := by
  simp [trying, bump]

theorem trying_ne {n m : Nat} (s : S) (h : m ≠ n) : (trying n s).t m = s.t m := by
  simp only [trying, bump]; rw [upd_ne _ _ h, upd_ne _ _ h]

/-- Changes of one place that the links do not see. -/
theorem links_upd {t : Nat → Rem} (l : Links t) {n : Nat} {r : Rem}
    (h : r.linked = true → (t n).linked = true ∧ r.parent = (t n).parent ∧ r.wanted = (t n).wanted)
    (h' : r.child = none ∨ (r.child = (t n).child ∧ r.serial = (t n).serial)) : Links (upd t n r) := by
  intro b p hb hp hch
  have hb' : (t b).linked = true ∧ (t b).parent = some p ∧ (upd t n r b).wanted = (t b).wanted := by
    by_cases e : b = n
    · rw [e, upd_same] at hb hp ⊢
      obtain ⟨a1, a2, a3⟩ := h hb
      exact ⟨a1, a2 ▸ hp, a3⟩
    · rw [upd_ne _ _ e] at hb hp ⊢; exact ⟨hb, hp, rfl⟩
  rw [hb'.2.2]
  by_cases e : p = n
  · rw [e, upd_same] at hch ⊢
    rcases h' with h' | h'
    · rw [h'] at hch; cases hch
    · rw [h'.2]
      exact l b n hb'.1 (e ▸ hb'.2.1) (h'.1 ▸ hch)
  · rw [upd_ne _ _ e] at hch ⊢
    exact l b p hb'.1 hb'.2.1 hch

theorem trying_after {n : Nat} {s : S} (hl : Links s.t) (hg : ∀ m, m ≠ n → Good (s.t m))
    (hn : Good (s.t n) ∨ Fresh (s.t n)) (hd : ¬ (s.t n).depth > 83) :
    After n s (trying n s) ∧ Good ((trying n s).t n) := by
  have tn := trying_n n s
  refine ⟨⟨⟨rfl, rfl, ?_, ?_⟩, ?_, ?_⟩, ?_⟩
  · intro m hm
    by_cases e : m = n
    · rw [e] at hm ⊢; rw [tn]; exact ⟨hm, rfl, rfl, rfl⟩
    · rw [trying_ne s e]; exact ⟨hm, rfl, rfl, rfl⟩
  · intro m hm _; rw [trying_ne s hm]
  · have l1 : Links (bump s.t n) := deeper_links (deeper_upd s.t n _ (by omega)) hl
    exact links_upd l1 (fun h => ⟨h, rfl, rfl⟩) (Or.inr ⟨rfl, rfl⟩)
  · intro m hm; rw [trying_ne s hm]; exact hg m hm
  · rw [tn]
    refine ⟨by simp only; omega, fun hu => ?_⟩
    simp only at hu ⊢
    rcases hn with hn | ⟨-, -, k, t, hn⟩
    · have := (hn.2 hu).2; omega
    · omega

theorem After.trans {n : Nat} {a b c : S} (h : After n a b) (h' : After n b c) : After n a c :=
  ⟨h.kept.trans h'.kept, h'.links, h'.good⟩

theorem After.all {n : Nat} {a b : S} (h : After n a b) (g : Good (b.t n)) (m : Nat) : Good (b.t m) := by
  by_cases e : m = n
  · rw [e]; exact g
  · exact h.good m e

theorem After.refl {n : Nat} {s : S} (hl : Links s.t) (hg : ∀ m, m ≠ n → Good (s.t m)) : After n s s :=
  ⟨⟨rfl, rfl, fun _ h => ⟨h, rfl, rfl, rfl⟩, fun _ _ _ => rfl⟩, hl, hg⟩

/-- The attempt to connect a request. -/
theorem makeConn_after (net : Net) : ∀ n s, Links s.t → (∀ m, m ≠ n → Good (s.t m)) →
    (s.t n).used = true → (Good (s.t n) ∨ Fresh (s.t n)) →
    After n s (makeConn net n s) ∧
      (Good ((makeConn net n s).t n) ∨ (makeConn net n s = s ∧ 83 < (s.t n).depth)) := by
  induction net with
  | fail =>
    intro n s hl hg hu hn
    unfold makeConn
    by_cases hd : (s.t n).depth > 83
    · rw [if_pos hd]; exact ⟨After.refl hl hg, Or.inr ⟨rfl, hd⟩⟩
    · rw [if_neg hd]
      obtain ⟨a, g⟩ := trying_after hl hg hn hd
      exact ⟨a, Or.inl g⟩
  | ok =>
    intro n s hl hg hu hn
    unfold makeConn
    by_cases hd : (s.t n).depth > 83
    · rw [if_pos hd]; exact ⟨After.refl hl hg, Or.inr ⟨rfl, hd⟩⟩
    · rw [if_neg hd]
      obtain ⟨a, g⟩ := trying_after hl hg hn hd
      show After n s { trying n s with t := upd (trying n s).t n { (trying n s).t n with sock := true } } ∧ _
      refine ⟨a.trans ⟨⟨rfl, rfl, ?_, ?_⟩, ?_, ?_⟩, Or.inl ?_⟩
      · intro m hm
        by_cases e : m = n
        · rw [e] at hm ⊢; simp [hm]
        · simp only; rw [upd_ne _ _ e]; exact ⟨hm, rfl, rfl, rfl⟩
      · intro m hm _; simp only; rw [upd_ne _ _ hm]
      · exact links_upd a.links (fun h => ⟨h, rfl, rfl⟩) (Or.inr ⟨rfl, rfl⟩)
      · intro m hm; simp only; rw [upd_ne _ _ hm]; exact a.good m hm
      · show Good (upd (trying n s).t n { (trying n s).t n with sock := true } n)
        rw [upd_same]; exact g
  | refer net ih =>
    intro n s hl hg hu hn
    unfold makeConn
    by_cases hd : (s.t n).depth > 83
    · rw [if_pos hd]; exact ⟨After.refl hl hg, Or.inr ⟨rfl, hd⟩⟩
    · rw [if_neg hd]
      obtain ⟨a, g⟩ := trying_after hl hg hn hd
      show After n s (gluelessNew 1 (makeConn net) n (trying n s)) ∧
        (Good ((gluelessNew 1 (makeConn net) n (trying n s)).t n) ∨ _)
      have hc : ConnOk (makeConn net) := by
        intro c s2 l2 g2 f2
        obtain ⟨a2, h2⟩ := ih c s2 l2 g2 f2.1 (Or.inr f2)
        refine ⟨a2, fun hs => ?_⟩
        rcases h2 with h2 | ⟨h2, -⟩
        · exact h2
        · rw [h2, f2.2.1] at hs; cases hs
      obtain ⟨a', g'⟩ := gluelessNew_after (kind := 1) hc a.links (a.all g) (a.kept.same n hu).1
      exact ⟨a.trans a', Or.inl g'⟩

theorem connOk (net : Net) : ConnOk (makeConn net) := by
  intro c s2 l2 g2 f2
  obtain ⟨a2, h2⟩ := makeConn_after net c s2 l2 g2 f2.1 (Or.inr f2)
  refine ⟨a2, fun hs => ?_⟩
  rcases h2 with h2 | ⟨h2, -⟩
  · exact h2
  · rw [h2, f2.2.1] at hs; cases hs

/-! ### What holds between two events -/

structure Inv (s : S) : Prop where
  good : ∀ m, Good (s.t m)
  links : Links s.t
  log : ∀ e ∈ s.log, e.1 = true → e.2.1 = e.2.2

theorem inv_start (size : Nat) : Inv (start size) where
  good _ := good_empty
  links b p h := by simp [start, Rem.empty] at h
  log e h := by simp [start] at h

theorem inv_upd {s : S} (i : Inv s) {n : Nat} {r : Rem} (g : Good r)
    (h : r.linked = true → (s.t n).linked = true ∧ r.parent = (s.t n).parent ∧ r.wanted = (s.t n).wanted)
    (h' : r.child = none ∨ (r.child = (s.t n).child ∧ r.serial = (s.t n).serial)) :
    Inv { s with t := upd s.t n r } where
  good m := by
    by_cases e : m = n
    · rw [e]; simp only [upd_same]; exact g
    · simp only; rw [upd_ne _ _ e]; exact i.good m
  links := links_upd i.links h h'
  log := i.log

theorem inv_free {s : S} (i : Inv s) (n : Nat) : Inv (free n s) :=
  inv_upd i good_empty (fun h => by simp [Rem.empty] at h) (Or.inl rfl)

theorem inv_after {n : Nat} {s s' : S} (i : ∀ e ∈ s.log, e.1 = true → e.2.1 = e.2.2)
    (a : After n s s') (g : Good (s'.t n)) : Inv s' where
  good := a.all g
  links := a.links
  log e he := i e (a.kept.log ▸ he)

theorem inv_makeConn {s : S} (i : Inv s) (net : Net) {n : Nat} (hu : (s.t n).used = true) :
    Inv (makeConn net n s) := by
  obtain ⟨a, h⟩ := makeConn_after net n s i.links (fun m _ => i.good m) hu (Or.inl (i.good n))
  rcases h with h | ⟨h, -⟩
  · exact inv_after i.log a h
  · rw [h]; exact i

theorem inv_gluelessDone {s : S} (i : Inv s) (sent : Bool) (n : Nat) : Inv (gluelessDone sent n s) := by
  have g := i.good n
  unfold gluelessDone
  by_cases h1 : (s.t n).depth > 83
  · rw [if_pos h1]; exact i
  rw [if_neg h1]
  have i1 : Inv { s with t := bump s.t n } := by
    refine inv_upd i ?_ (fun h => ⟨h, rfl, rfl⟩) (Or.inr ⟨rfl, rfl⟩)
    refine ⟨by simp only; omega, fun hu => ?_⟩
    have := g.2 hu; simp only at this ⊢; omega
  simp only
  split
  · refine inv_upd i1 ?_ (fun h => ⟨h, rfl, rfl⟩) (Or.inr ⟨rfl, rfl⟩)
    simp only [bump, upd_same]
    refine ⟨by simp only; omega, fun hu => ?_⟩
    have := g.2 hu; simp only at this ⊢; omega
  · exact i1

theorem inv_log {s : S} (i : Inv s) {e : Bool × Nat × Nat} (h : e.1 = true → e.2.1 = e.2.2) :
    Inv { s with log := e :: s.log } where
  good := i.good
  links := i.links
  log e' he := by
    rcases List.mem_cons.mp he with rfl | he
    · exact h
    · exact i.log e' he

theorem inv_cnameReply : ∀ (oks : List Bool) (n : Nat) (s : S), Inv s → Inv (cnameReply oks n s) := by
  intro oks
  induction oks with
  | nil => intro n s i; exact i
  | cons ok oks ih =>
    intro n s i
    unfold cnameReply
    split
    · apply inv_free
      split
      · split
        · exact ih _ _ (inv_log i (fun h => by cases h))
        · exact i
      · exact i
    · exact i

theorem inv_answered {s : S} (i : Inv s) (n : Nat) (oks : List Bool) : Inv (answered n oks s) := by
  unfold answered
  apply inv_free
  split
  · rename_i p hl hp
    split
    · rename_i hc
      have hlog : Inv { s with log := (true, (s.t n).wanted, (s.t p).serial) :: s.log } :=
        inv_log i (fun _ => i.links n p hl hp hc)
      simp only
      split
      · exact inv_gluelessDone hlog _ _
      · split
        · exact inv_cnameReply _ _ _ hlog
        · exact i
    · exact i
  · exact i

theorem newRequest_after {s : S} (i : Inv s) (b : Nat) (linked : Bool) :
    Links (newRequest b linked s).t ∧ (∀ m, m ≠ b → Good ((newRequest b linked s).t m)) ∧
      Fresh ((newRequest b linked s).t b) := by
  refine ⟨?_, ?_, ?_⟩
  · intro c p hc hp hch
    simp only [newRequest] at hc hp hch ⊢
    by_cases e : c = b
    · rw [e, upd_same] at hp; simp [Rem.empty] at hp
    · by_cases e' : p = b
      · rw [e', upd_same] at hch; simp [Rem.empty] at hch
      · rw [upd_ne _ _ e] at hc hp ⊢
        rw [upd_ne _ _ e'] at hch ⊢
        exact i.links c p hc hp hch
  · intro m hm
    simp only [newRequest]; rw [upd_ne _ _ hm]; exact i.good m
  · simp [newRequest, Fresh, Rem.empty]

theorem inv_arrive {s : S} (i : Inv s) (net : Net) (b : Nat) (linked : Bool) :
    Inv (makeConn net b (newRequest b linked s)) := by
  obtain ⟨l, g, f⟩ := newRequest_after i b linked
  obtain ⟨a, h⟩ := makeConn_after net b _ l g f.1 (Or.inr f)
  rcases h with h | ⟨-, h⟩
  · exact inv_after (s := newRequest b linked s) i.log a h
  · simp [newRequest, Rem.empty] at h

theorem arrive_parent (b : Nat) (linked : Bool) (s : S) :
    ((makeConn .ok b (newRequest b linked s)).t b).parent = none := by
  unfold makeConn
  simp [newRequest, Rem.empty, bump]

theorem inv_step {s : S} (i : Inv s) (e : Ev) : Inv (step s e) := by
  cases e with
  | arrive net =>
    simp only [step]
    split
    · exact i
    · rename_i b _
      have h := inv_arrive i net b false
      cases net with
      | fail => exact inv_free h b
      | ok =>
        simp only
        have hp := arrive_parent b false s
        generalize makeConn .ok b (newRequest b false s) = s1 at h hp
        refine ⟨?_, ?_, h.log⟩
        · intro m
          simp only
          by_cases e : m = b
          · rw [e, upd_same]; exact h.good b
          · rw [upd_ne _ _ e]; exact h.good m
        · intro c p hc hp' hch
          simp only at hc hp' hch ⊢
          by_cases e : c = b
          · rw [e, upd_same] at hp'
            simp only at hp'
            rw [hp] at hp'; cases hp'
          · rw [upd_ne _ _ e] at hc hp' ⊢
            by_cases e' : p = b
            · rw [e', upd_same] at hch ⊢
              exact h.links c b hc (e' ▸ hp') hch
            · rw [upd_ne _ _ e'] at hch ⊢
              exact h.links c p hc hp' hch
      | refer net => exact h
  | arriveCname net =>
    simp only [step]
    split
    · exact i
    · exact inv_arrive i net _ true
  | again n net =>
    simp only [step]
    split
    · rename_i hu; exact inv_makeConn i net hu
    · exact i
  | cname n net =>
    simp only [step]
    split
    · rename_i hu
      obtain ⟨a, g⟩ := gluelessNew_after (kind := 2) (connOk net) i.links i.good hu
      exact inv_after i.log a g
    · exact i
  | cnameCached n oks =>
    simp only [step]
    split
    · exact inv_cnameReply _ _ _ i
    · exact i
  | answered n oks =>
    simp only [step]
    split
    · exact inv_answered i n oks
    · exact i
  | expire n => exact inv_free i n

theorem inv_run (es : List Ev) : ∀ s, Inv s → Inv (run s es) := by
  induction es with
  | nil => intro s i; exact i
  | cons e es ih => intro s i; exact ih _ (inv_step i e)

end Depth
end Dw
