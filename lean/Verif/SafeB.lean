import Verif.Safe
import Verif.Loose
import Verif.Single
import Verif.Algo.FOA
import Verif.Algo.FSS
import Verif.Algo.CLONALG
import Verif.Algo.HS
import Verif.Algo.SA
import Verif.Algo.HC
import Verif.Algo.HHO
import Verif.Algo.KH

/-!
# Runs that do not raise: single-solution, list-based and further array-based algorithms
-/

namespace NiaPy
variable [Arith] {D N : ℕ} {env : Env (Vec D)} {B : Box D}

theorem Total.takeMin {X : Type} {env : Env X} {n : ℕ} (hn : 0 < n) {pop : Fin n → X} {fit : Fin n → Fl} {xb : X} {fxb : Fl} :
    Ends env (NiaPy.takeMin pop fit xb fxb) := .bindT (.argminIdx hn) fun _ => .pure' trivial

macro_rules | `(tactic| ends_step) => `(tactic| exact Total.takeMin (by omega))

theorem Total.initOne {E : Type} (hE : env.Calm) (e : E) : Total env (NiaPy.initOne B e) fun s => s.f ≠ .nan :=
  .bindT (.bindT Total.randVec.ends fun _ => .pure' trivial) fun _ => .bind' (Total.eval hE) fun _ hv => .pure' hv

/-- Simulated annealing. -/
theorem SA.safe (hE : env.Calm) (p : Par) : (alg B p).Safe env := by
  refine ⟨fun _ => True, (Total.initOne hE _).mono fun s hs => ⟨trivial, nofun, rfl, fun v hv => ?_⟩, fun s xb fxb _ => ?_⟩
  · rw [List.mem_singleton.1 hv]; exact hs
  · show Ends env (iter p s xb fxb)
    unfold iter
    ends

/-- Hill climbing. -/
theorem HC.safe (hE : env.Calm) (delta : Fl) (hd : ¬ delta < .fin 0) (fuel : ℕ) : (alg B delta fuel).Safe env := by
  refine ⟨fun _ => True, (Total.initOne hE _).mono fun s hs => ⟨trivial, nofun, rfl, fun v hv => ?_⟩, fun s xb fxb _ => ?_⟩
  · rw [List.mem_singleton.1 hv]; exact hs
  · have hc : ∀ x n b, Ends env (climb delta x n b : Prog (Vec D) _) := fun x n => by
      induction n with
      | zero => exact fun b => .fuel
      | succ n ih =>
        refine fun b => .bindT ?_ fun y => .ite (fun _ => ih _) fun _ => .pure' trivial
        unfold neighborhood
        ends
    refine .bindT (.bindT Total.randVec.ends fun _ => .pure' trivial) fun x => .bindT (Total.eval hE).ends fun v => .bindT (hc _ _ _) fun y => .pure' trivial

/-- Harmony search. -/
theorem HS.safe (hE : env.Calm) (hB : B.Proper) (hN : 0 < N) (p : Par) : (alg B N p).Safe env := by
  refine ⟨fun _ => True, .bind' (Total.defaultNumpyInit hE hB hN) fun r hr => .pure' ⟨trivial, first_arr hN hr⟩, fun s xb fxb _ => ?_⟩
  have hw : Ends env (bw p.width : Prog (Vec D) Fl) := by
    cases p.width with
    | plain r => exact .bindT (Total.unif unifErr_one).ends fun _ => .pure' trivial
    | v1 lo hi => exact .bindT Total.look.ends fun _ => .pure' trivial
  have hi : Ends env (improvise B p s) := .tabMT fun i => .bindT Total.rand.ends fun r => .bindT (.intFin hN) fun j =>
    .ite (fun _ => .pure' trivial) fun _ => .ite (fun _ => .bindT hw fun _ => .pure' trivial) fun _ => (Total.unif (hB i)).ends
  refine .bindT hi fun h => ?_
  show Ends env _
  ends

/-- Harris hawks optimization. -/
theorem HHO.safe (hE : env.Calm) (hB : B.Proper) (hs : SigmaLaw) (hN : 0 < N) (levy : Fl) : (alg B N levy).Safe env := by
  refine ⟨fun _ => True, .bind' (Total.defaultNumpyInit hE hB hN) fun r hr => .pure' ⟨trivial, first_arr hN hr⟩, fun s xb fxb _ => ?_⟩
  have h1 : unifErr 0 (Fl.ofNat 2) = none := by decide
  have h2 := unifErr_one
  have h3 : ∀ i, unifErr (B.lo i) (B.hi i) = none := hB
  show Ends env (iter B levy s xb fxb)
  unfold iter step move dive
  ends

/-- Krill herd. -/
theorem KH.safe (hE : env.Calm) (hB : B.Proper) (hN : 0 < N) (p : Par D) : (alg B N p).Safe env := by
  refine ⟨fun _ => True, .bind' (Total.defaultNumpyInit hE hB hN) fun r hr => .pure' ⟨trivial, first_arr hN hr⟩, fun s xb fxb _ => ?_⟩
  have h2 : ∀ i : Fin D, unifErr ((fun _ => -1 : Vec D) i) ((fun _ => 1 : Vec D) i) = none := fun _ => unifErr_one
  show Ends env (iter B p s xb fxb)
  unfold iter newHerd inducedMotion neighbours diffusion crossover mutate1
  ends

/-- Fish school search. -/
theorem FSS.safe (hE : env.Calm) (hB : B.Proper) (hN : 0 < N) (opt : OptType) (p : Par) : (alg opt B N p).Safe env := by
  refine ⟨fun _ => True, .bind' (Total.defaultIndividualInit hE hB) fun r hr => .pure' ⟨trivial, first_arr hN hr⟩, fun s xb fxb _ => ?_⟩
  have h1 : ∀ i : Fin D, unifErr ((fun _ => -1 : Vec D) i) ((fun _ => 1 : Vec D) i) = none := fun _ => unifErr_one
  have h2 : ∀ i : Fin D, unifErr ((fun _ => 0 : Vec D) i) ((fun _ => 1 : Vec D) i) = none := fun _ => (by decide : unifErr 0 1 = none)
  have hf : ∀ school : Fin N → Fish D, Ends env (feeding p school) := fun school => by
    unfold feeding
    rw [if_neg (by omega)]
    exact .pure' trivial
  refine .bindT ?_ fun a => .bindT (hf _) fun _ => .bindT ?_ fun _ => .bindT ?_ fun _ => ?_
  · unfold moveOne
    ends
  · unfold instinctive
    ends
  · refine .forFin _ trivial fun i a _ => .bindT (Total.unifVec h2).ends fun _ => .bindT (Total.indivEvaluate hE).ends fun _ => .pure' trivial
  · show Ends env _
    ends

omit [Arith] in
theorem Total.evalKeep {X β : Type} {env : Env X} (hE : env.Calm) {pt : β → X} {l : List β} (hl : l ≠ []) :
    Total env (NiaPy.evalKeep pt l) fun r => (∀ e ∈ r, e.2 ≠ .nan) ∧ r.length = l.length := by
  unfold NiaPy.evalKeep
  rw [if_neg (by simpa using hl)]
  exact Total.mapMAll fun _ _ => .bind' (eval hE) fun _ hv => .pure' hv

/-- The clonal selection algorithm. -/
theorem CLONALG.safe (hE : env.Calm) (hN : 0 < N) (b : ℕ) (p : Par) (hp : 0 < p.numClones) : (alg B b N p).Safe env := by
  have hev : ∀ l : List (Bits D b), l ≠ [] → Total env (evaluate B l) fun r => (∀ a ∈ r, a.f ≠ .nan) ∧ r ≠ [] := fun l hl =>
    .bind' (Total.evalKeep hE hl) fun r hr => .pure' ⟨fun a ha => by
      obtain ⟨e, he, rfl⟩ := List.mem_map.1 ha
      exact hr.1 e he, by rw [Ne, List.map_eq_nil_iff, ← List.length_eq_zero_iff, hr.2, List.length_eq_zero_iff]; exact hl⟩
  have hbits : ∀ n, Total env (randomBits n : Prog (Vec D) (List (Bits D b))) fun r => r.length = n := fun n =>
    (Total.mapMAll (P := fun _ => True) fun _ _ => .tabMT fun _ => .tabMT fun _ => .bindT Total.rand.ends fun _ => .pure' trivial).mono
      fun r hr => by simpa using hr.2
  have hsel : ∀ l : List (Ab D b), l ≠ [] → Total env (select N l) fun r => r ≠ [] := fun l hl =>
    .bind' Total.sortRecs fun r hr => .pure' (by
      rw [Ne, List.take_eq_nil_iff]
      rintro (h | rfl)
      · omega
      · exact hl (List.Perm.nil_eq hr.1).symm)
  have hne : ∀ {n : ℕ} {l : List (Bits D b)}, 0 < n → l.length = n → l ≠ [] := by
    rintro n _ h0 h1 rfl
    simp at h1
    omega
  refine ⟨fun s => s ≠ [], .bind' (hbits N) fun r hr => (hev r (hne hN hr)).mono fun s hs => ⟨hs.2, by simpa [alg] using hs.2, by simp [alg], fun v hv => ?_⟩,
    fun s xb fxb hs => ?_⟩
  · obtain ⟨a, ha, rfl⟩ := List.mem_map.1 hv
    exact hs.1 a ha
  · have hb : ∀ (s : List (Ab D b)) xb fxb, s ≠ [] → Ends env (Prog.getBest (s.map (·.x)) (s.map (·.f)) xb fxb) := fun s xb fxb hs =>
      .getBest (by simpa using hs) (by simp)
    refine .bind' (P := fun s : List (Ab D b) => s ≠ []) ?_ fun s hs => .bindT (hb _ _ _ hs) fun b1 => .bind' (P := fun s : List (Ab D b) => s ≠ []) ?_
      fun s hs => .bindT (hb _ _ _ hs) fun _ => .pure' hs
    · refine .bind' (Total.mapMAll (P := fun _ => True) fun a _ => .tabMT fun _ => .tabMT fun _ => .bindT Total.rand.ends fun _ => .pure' trivial)
        fun cl hcl => .bind' (hev cl (hne (n := _) ?_ hcl.2)) fun new _ => hsel _ (fun h => hs (List.append_eq_nil_iff.1 h).1)
      have hs : (s : List (Ab D b)) ≠ [] := hs
      obtain ⟨a, s', rfl⟩ := List.exists_cons_of_ne_nil hs
      simp
      omega
    · refine .ite (fun _ => .pure' hs) fun h0 => .bind' (hbits _) fun r hr => .bind' (hev r (hne (by omega) hr)) fun new _ => hsel _ (fun h => hs (List.append_eq_nil_iff.1 h).1)

/-- Some tree is new, or the trees live for some iterations, and the numbers of changes do not exceed the dimension. -/
structure FOA.Par.Valid (p : FOA.Par) (B : Box D) : Prop where
  lifetime : 0 < p.lifetime ∨ 0 < p.localChanges
  area : 0 < p.areaLimit
  loc : p.localChanges ≤ D
  glob : p.globalChanges ≤ D
  rate : p.transferRate ≤ .fin 1
  dx : ∀ j, unifErr (-dx B j) (dx B j) = none

/-- The forest optimization algorithm. -/
theorem FOA.safe (hE : env.Calm) (hB : B.Proper) (hN : 0 < N) (p : Par) (hp : p.Valid B) : (alg B N p).Safe env := by
  have hev : ∀ l : List (Vec D × ℕ), l ≠ [] → Total env (evalTrees l) fun r => r ≠ [] := fun l hl => by
    unfold evalTrees
    rw [if_neg (by simpa using hl)]
    refine (Total.mapMAll (P := fun _ => True) fun _ _ => .bindT (Total.eval hE).ends fun _ => .pure' trivial).mono fun r hr => ?_
    rintro rfl
    exact hl (List.length_eq_zero_iff.1 hr.2.symm)
  have hg : ∀ kept cands, kept ≠ [] → Total env (globalPhase B p kept cands) fun r => r ≠ [] := fun kept cands hk => by
    have hle : scaleNat p.transferRate cands.length ≤ cands.length := by
      have := hp.rate
      cases h : p.transferRate with
      | fin q =>
        rw [h, Fl.fin_le_fin] at this
        have h1 : q * cands.length ≤ cands.length := by
          have : (0 : ℚ) ≤ cands.length := by positivity
          nlinarith
        have := Int.floor_le_floor h1
        simp only [scaleNat]
        simp at this
        omega
      | _ => simp [scaleNat]
    refine .ite (fun h0 => ?_) fun _ => .pure' hk
    refine .bind' (P := fun l : List (Vec D) => l.length = scaleNat p.transferRate cands.length) ?_ fun seeds hs => .bind' (hev _ ?_) fun new _ => .pure' (by simp [hk])
    · refine .bindT (Total.choiceFin hle).ends fun idx => (Total.mapMAll (P := fun _ => True) fun x _ => ?_).mono fun r hr => by simpa using hr.2
      exact .bindT (Total.choiceFin hp.glob).ends fun _ => .bindT (Total.unifVec hB).ends fun _ => .pure' trivial
    · rw [Ne, List.map_eq_nil_iff]
      rintro rfl
      simp at hs
      omega
  have hfresh : ∀ l : List (Tree D), l ≠ [] → ∃ t ∈ freshen l, t.age = 0 := fun l hl => by
    obtain ⟨k, h1, h2⟩ := Total.argmin_ok (l := l.map (·.f)) (by simpa using hl)
    unfold freshen
    rw [h1]
    simp only [List.length_map] at h2
    refine ⟨{ l[k] with age := 0 }, ?_, rfl⟩
    rw [List.mem_iff_getElem]
    exact ⟨k, by simpa using h2, by simp⟩
  refine ⟨fun s : List (Tree D) => ∃ t ∈ s, t.age = 0, .bind' (Total.defaultNumpyInit hE hB hN) fun r hr => .pure' ⟨?_, ?_⟩, fun s xb fxb hs => ?_⟩
  · exact ⟨⟨r.1 ⟨0, hN⟩, r.2 ⟨0, hN⟩, 0⟩, List.mem_ofFn.2 ⟨⟨0, hN⟩, rfl⟩, rfl⟩
  · have := first_arr hN (pop := r.1) hr
    simpa [alg, List.map_ofFn, Function.comp_def] using this
  · refine .bind' (P := fun l : List (Vec D) => 0 < p.localChanges → l ≠ []) ?_ fun seeds hse => .bind' (hev _ ?_) fun ev he => .bind' Total.sortRecs fun so hso =>
      .bind' (hg _ _ ?_) fun pop hpop => .bindT (Total.argminRec hpop).ends fun best => .pure' (hfresh pop hpop)
    · refine (Total.mapMAll (P := fun _ => True) fun x _ => ?_).mono fun r hr h0 => ?_
      · exact .bindT (Total.choiceFin hp.loc).ends fun _ => .bindT (Total.unifVec hp.dx).ends fun _ => .repair
      · rintro rfl
        obtain ⟨t, ht, ha⟩ := hs
        have h1 := List.length_eq_zero_iff.1 hr.2.symm
        rw [List.flatMap_eq_nil_iff] at h1
        have := h1 t.x (List.mem_map.2 ⟨t, List.mem_filter.2 ⟨ht, by simpa using ha⟩, rfl⟩)
        simp at this
        omega
    · rcases hp.lifetime with h | h
      · obtain ⟨t, ht, ha⟩ := hs
        refine List.ne_nil_of_mem (a := (t.x, t.age + 1)) (List.mem_append.2 (Or.inl (List.mem_filter.2 ⟨List.mem_map.2 ⟨t, ht, rfl⟩, ?_⟩)))
        simp
        omega
      · have := hse h
        simp [this]
    · rw [Ne, List.take_eq_nil_iff]
      rintro (h | rfl)
      · exact absurd hp.area (by omega)
      · exact he (List.Perm.nil_eq hso.1).symm

end NiaPy
