import Verif.ParamsProps

/-!
# Which classes keep their parameters (C83, C84, C85)
-/

namespace NiaPy.Params
set_option linter.constructorNameAsVariable false

/-- Classes whose `set_parameters` raises a `TypeError` on what `get_parameters` returned: an argument is passed twice. -/
def raising : List Cls := [.ArtificialBeeColonyAlgorithm, .CamelAlgorithm, .CoralReefsOptimization, .AgingNpDifferentialEvolution,
  .MultiStrategyDifferentialEvolution, .DynNpMultiStrategyDifferentialEvolution, .EvolutionStrategyMp1, .EvolutionStrategyMpL,
  .EvolutionStrategyML, .LionOptimizationAlgorithm, .DifferentialEvolutionMTSv1, .DynNpDifferentialEvolutionMTSv1,
  .MultiStrategyDifferentialEvolutionMTS, .MultiStrategyDifferentialEvolutionMTSv1, .DynNpMultiStrategyDifferentialEvolutionMTS,
  .DynNpMultiStrategyDifferentialEvolutionMTSv1, .ParameterFreeBatAlgorithm, .MultipleTrajectorySearchV1]

/-- Classes that lose a parameter: `set_parameters` resets it to its default because `get_parameters` omits or renames it. -/
def forgetting : List (Cls × Nm × Tok) := [
  (.GlowwormSwarmOptimizationV2, .alpha, .v0_2), (.GlowwormSwarmOptimizationV3, .beta1, .v0_2),
  (.OppositionVelocityClampingParticleSwarmOptimization, .min_velocity, .vm1_5),
  (.OppositionVelocityClampingParticleSwarmOptimization, .max_velocity, .v1_5),
  (.HybridSelfAdaptiveBatAlgorithm, .strategy, .cross_best1),
  (.AnarchicSocietyOptimization, .d, .euclidean), (.AnarchicSocietyOptimization, .dn, .euclidean),
  (.MultipleTrajectorySearch, .population_size, .v40), (.SimulatedAnnealing, .cooling_method, .cool_delta)]

/-- Classes for which `set_parameters` and the constructor disagree. -/
def disagreeing : List Cls := [.BatAlgorithm, .CamelAlgorithm, .CoralReefsOptimization, .CuckooSearch, .DynNpDifferentialEvolution,
  .MultiStrategyDifferentialEvolution, .DynNpMultiStrategyDifferentialEvolution, .EvolutionStrategyMp1, .FlowerPollinationAlgorithm,
  .FishSchoolSearch, .LionOptimizationAlgorithm, .HybridBatAlgorithm, .DifferentialEvolutionMTS, .DifferentialEvolutionMTSv1,
  .DynNpDifferentialEvolutionMTS, .DynNpDifferentialEvolutionMTSv1, .MultiStrategyDifferentialEvolutionMTS,
  .MultiStrategyDifferentialEvolutionMTSv1, .DynNpMultiStrategyDifferentialEvolutionMTS, .DynNpMultiStrategyDifferentialEvolutionMTSv1,
  .MultipleTrajectorySearchV1]

/-- Parameters that `get_parameters` leaves out. -/
def unreported : List (Cls × Nm) := [
  (.CoralReefsOptimization, .crossover_rate), (.CoralReefsOptimization, .mutation_rate), (.GlowwormSwarmOptimizationV2, .alpha),
  (.GlowwormSwarmOptimizationV3, .beta1), (.OppositionVelocityClampingParticleSwarmOptimization, .min_velocity),
  (.OppositionVelocityClampingParticleSwarmOptimization, .max_velocity), (.HybridSelfAdaptiveBatAlgorithm, .strategy),
  (.AnarchicSocietyOptimization, .d), (.AnarchicSocietyOptimization, .dn), (.MultipleTrajectorySearch, .population_size),
  (.MultipleTrajectorySearchV1, .population_size), (.SimulatedAnnealing, .cooling_method)]

/-- The runs on symbols. -/
theorem trips : ∀ c ∈ Cls.all, (tripB c (keywords c) && tripB c []) = decide (c ∉ raising ∧ c ∉ forgetting.map (·.1)) := by decide +kernel
theorem agrees : ∀ c ∈ Cls.all, (agreeB c (keywords c) && (agreeB c [] && (keywords c).all fun k => agreeB c [k])) =
    decide (c ∉ disagreeing) := by decide +kernel

theorem shows : ∀ c ∈ Cls.all, (match shown c with
    | none => false
    | some d => (keywords c).all fun k => decide (Dict.find d k = some (.sym k)) == decide ((c, k) ∉ unreported)) = true := by decide +kernel

/-- C83: parameters survive `set_parameters(**get_parameters())` for exactly the classes that are not in the two lists. -/
theorem C83_partial (c : Cls) : RoundTrip c ↔ c ∉ raising ∧ c ∉ forgetting.map (·.1) := by
  rw [roundTrip_iff, ← Bool.and_eq_true, trips c c.mem_all, decide_eq_true_iff]

/-- C84: `set_parameters` agrees with the constructor for exactly the classes that are not in the list. -/
theorem C84_partial (c : Cls) : Agree c ↔ c ∉ disagreeing := by
  rw [agree_iff, ← Bool.and_eq_true, ← Bool.and_eq_true, agrees c c.mem_all, decide_eq_true_iff]

example : Nm.alpha ∈ keywords .BatAlgorithm ∧ RoundTrip .BatAlgorithm ∧ ¬ Agree .BatAlgorithm :=
  ⟨by decide +kernel, (C83_partial _).2 (by decide +kernel), fun h => (C84_partial _).1 h (by decide +kernel)⟩

/-- C85: `get_parameters` shows a parameter of the constructor unless it is in the list. -/
theorem C85_partial (c : Cls) (k : Nm) (hk : k ∈ keywords c) : Reports c k ↔ (c, k) ∉ unreported := by
  have h := shows c c.mem_all
  rw [reports_iff]
  split at h
  · cases h
  · rename_i d hd
    rw [hd, ← decide_eq_decide]
    exact eq_of_beq (List.all_eq_true.1 h k hk)

example : Nm.limit ∈ keywords .ArtificialBeeColonyAlgorithm ∧ Reports .ArtificialBeeColonyAlgorithm .limit ∧ Nm.alpha ∈ keywords .GlowwormSwarmOptimizationV2 :=
  ⟨by decide +kernel, (C85_partial _ _ (by decide +kernel)).2 (by decide +kernel), by decide +kernel⟩

/-- What happens for those in the list: there is no such key. -/
theorem C85_missing_false (c : Cls) (k : Nm) (hc : (c, k) ∈ unreported) : k ∈ keywords c ∧ ∀ (V : Type) (I : Interp V) (x : Nm → V), ∃ σ d,
    new I table c (args (keywords c) x) = .ok σ ∧ getParams table c σ = .ok d ∧ Dict.find d k = none := by
  have h : ∀ e ∈ unreported, e.2 ∈ keywords e.1 ∧ (match shown e.1 with | none => false | some d => (Dict.find d e.2).isNone) = true := by decide +kernel
  obtain ⟨h1, h2⟩ := h _ hc
  refine ⟨h1, fun V I x => ?_⟩
  split at h2
  · cases h2
  · rename_i d hd
    obtain ⟨σ, d', h3, h4, h5⟩ := shown_value hd I x
    refine ⟨σ, d', h3, h4, ?_⟩
    rw [h5, Option.isNone_iff_eq_none.1 h2]
    rfl

/-- What happens for the first list: with all parameters given, the second call raises. -/
theorem C83_raises_false (c : Cls) (hc : c ∈ raising) (V : Type) (I : Interp V) (x : Nm → V) : ∃ σ d,
    new I table c (args (keywords c) x) = .ok σ ∧ getParams table c σ = .ok d ∧ setParams I table c d σ = .error .typeError := by
  have h : ∀ c ∈ raising, (match new free table c (args (keywords c) .sym) with
      | .error _ => false
      | .ok σ => match getParams table c σ with
        | .error _ => false
        | .ok d => match setParams free table c d σ with
          | .error .typeError => true
          | _ => false) = true := by decide +kernel
  have h := h c hc
  have h1 := new_value I x x c (args (keywords c) .sym)
  rw [args_value] at h1
  generalize new free table c (args (keywords c) .sym) = r1 at h h1
  rcases r1 with e | σ
  · cases h
  · have h2 := get_value I x x c σ
    simp only at h
    generalize getParams table c σ = r2 at h h2
    rcases r2 with e | d
    · cases h
    · have h3 := set_value I x x c d σ
      simp only at h
      generalize setParams free table c d σ = r3 at h h3
      refine ⟨_, _, h1, h2, ?_⟩
      rw [h3]
      split at h
      · rfl
      · cases h

/-- What happens for the second list: the parameter is stored by the constructor and reset to its default by the second call. -/
theorem C83_forgets_false (c : Cls) (a : Nm) (t : Tok) (hc : (c, a, t) ∈ forgetting) (V : Type) (I : Interp V) (x : Nm → V) : ∃ σ d σ',
    new I table c (args (keywords c) x) = .ok σ ∧ getParams table c σ = .ok d ∧ setParams I table c d σ = .ok σ' ∧
    Dict.find σ a = some (x a) ∧ Dict.find σ' a = some (I.const t) := by
  have h : ∀ e ∈ forgetting, (match new free table e.1 (args (keywords e.1) .sym) with
      | .error _ => false
      | .ok σ => match getParams table e.1 σ with
        | .error _ => false
        | .ok d => match setParams free table e.1 d σ with
          | .error _ => false
          | .ok σ' => decide (Dict.find σ e.2.1 = some (.sym e.2.1) ∧ Dict.find σ' e.2.1 = some (.const e.2.2))) = true := by decide +kernel
  have h := h _ hc
  have h1 := new_value I x x c (args (keywords c) .sym)
  rw [args_value] at h1
  simp only at h
  generalize new free table c (args (keywords c) .sym) = r1 at h h1
  rcases r1 with e | σ
  · cases h
  · have h2 := get_value I x x c σ
    simp only at h
    generalize getParams table c σ = r2 at h h2
    rcases r2 with e | d
    · cases h
    · have h3 := set_value I x x c d σ
      simp only at h
      generalize setParams free table c d σ = r3 at h h3
      rcases r3 with e | σ'
      · cases h
      · obtain ⟨ha, hb⟩ := of_decide_eq_true h
        exact ⟨_, _, _, h1, h2, h3, by rw [find_map, ha]; rfl, by rw [find_map, hb]; rfl⟩

/-- Defaults that differ: class, attribute, default of the constructor, default of `set_parameters`. -/
def defaults : List (Cls × Nm × Tok × Tok) := [
  (.BatAlgorithm, .population_size, .v40, .v20), (.HybridBatAlgorithm, .population_size, .v40, .v20),
  (.CuckooSearch, .population_size, .v25, .v50), (.CuckooSearch, .pa, .v0_25, .v0_2),
  (.FlowerPollinationAlgorithm, .population_size, .v20, .v25), (.FishSchoolSearch, .w_scale, .v500, .v5000),
  (.DynNpDifferentialEvolution, .population_size, .v10, .v50), (.MultiStrategyDifferentialEvolution, .population_size, .v40, .v50),
  (.DynNpMultiStrategyDifferentialEvolution, .population_size, .v40, .v50), (.DifferentialEvolutionMTS, .population_size, .v40, .v50),
  (.DifferentialEvolutionMTSv1, .population_size, .v40, .v50), (.DynNpDifferentialEvolutionMTS, .population_size, .v40, .v50),
  (.DynNpDifferentialEvolutionMTS, .p_max, .v50, .v10), (.DynNpDifferentialEvolutionMTSv1, .population_size, .v40, .v50),
  (.DynNpDifferentialEvolutionMTSv1, .p_max, .v50, .v10), (.MultiStrategyDifferentialEvolutionMTS, .population_size, .v40, .v50),
  (.MultiStrategyDifferentialEvolutionMTSv1, .population_size, .v40, .v50),
  (.DynNpMultiStrategyDifferentialEvolutionMTS, .population_size, .v40, .v50),
  (.DynNpMultiStrategyDifferentialEvolutionMTSv1, .population_size, .v40, .v50)]

/-- `a.set_parameters()` does not restore the defaults of the constructor. -/
theorem C84_defaults_false (c : Cls) (a : Nm) (t t' : Tok) (hc : (c, a, t, t') ∈ defaults) (V : Type) (I : Interp V) (y : Nm → V) : ∃ σ σ',
    new I table c [] = .ok σ ∧ setParams I table c [] (args Nm.all y) = .ok σ' ∧
    Dict.find σ a = some (I.const t) ∧ Dict.find σ' a = some (I.const t') ∧ t ≠ t' := by
  have h : ∀ e ∈ defaults, (match new free table e.1 [] with
      | .error _ => false
      | .ok σ => match setParams free table e.1 [] (args Nm.all .old) with
        | .error _ => false
        | .ok σ' => decide (Dict.find σ e.2.1 = some (.const e.2.2.1) ∧ Dict.find σ' e.2.1 = some (.const e.2.2.2) ∧ e.2.2.1 ≠ e.2.2.2)) =
      true := by decide +kernel
  have h := h _ hc
  have h1 : new I table c [] = (new free table c []).map (mapD (Val.value I y y)) := new_value I y y c []
  have h2 : setParams I table c [] (mapD (Val.value I y y) (args Nm.all .old)) =
    (setParams free table c [] (args Nm.all .old)).map (mapD (Val.value I y y)) := set_value I y y c [] (args Nm.all .old)
  rw [args_old] at h2
  simp only at h
  generalize new free table c [] = r1 at h h1
  rcases r1 with e | σ
  · cases h
  · simp only at h
    generalize setParams free table c [] (args Nm.all .old) = r2 at h h2
    rcases r2 with e | σ'
    · cases h
    · obtain ⟨ha, hb, hn⟩ := of_decide_eq_true h
      exact ⟨_, _, h1, h2, by rw [find_map, ha]; rfl, by rw [find_map, hb]; rfl, hn⟩

/-- `MultipleTrajectorySearchV1.set_parameters` ignores its own parameters. -/
theorem C84_ignored_false (k : Nm) (t : Tok) (hk : (k, t) ∈ [(Nm.population_size, Tok.v40), (.num_tests, .v5), (.num_searches, .v5),
      (.num_enabled, .v17), (.bonus1, .v10), (.bonus2, .v1)]) (V : Type) (I : Interp V) (x : V) (y : Nm → V) :
    Stores .MultipleTrajectorySearchV1 k k ∧ ∃ σ',
      setParams I table .MultipleTrajectorySearchV1 [(k, x)] (args Nm.all y) = .ok σ' ∧ Dict.find σ' k = some (I.const t) := by
  have h : ∀ e ∈ [(Nm.population_size, Tok.v40), (.num_tests, .v5), (.num_searches, .v5), (.num_enabled, .v17), (.bonus1, .v10), (.bonus2, .v1)],
      decide (e.1 ∈ storedIn .MultipleTrajectorySearchV1 e.1) = true ∧
      (match setParams free table .MultipleTrajectorySearchV1 [(e.1, .sym e.1)] (args Nm.all .old) with
        | .error _ => false
        | .ok σ' => decide (Dict.find σ' e.1 = some (.const e.2))) = true := by decide +kernel
  obtain ⟨h0, h⟩ := h _ hk
  refine ⟨stores_iff.2 (of_decide_eq_true h0), ?_⟩
  have h2 : setParams I table .MultipleTrajectorySearchV1 [(k, x)] (mapD (Val.value I (fun _ => x) y) (args Nm.all .old)) =
    (setParams free table .MultipleTrajectorySearchV1 [(k, .sym k)] (args Nm.all .old)).map (mapD (Val.value I (fun _ => x) y)) :=
    set_value I (fun _ => x) y _ [(k, .sym k)] (args Nm.all .old)
  rw [args_old] at h2
  simp only at h
  generalize setParams free table .MultipleTrajectorySearchV1 [(k, Val.sym k)] (args Nm.all .old) = r2 at h h2
  rcases r2 with e | σ'
  · cases h
  · exact ⟨_, h2, by rw [find_map, of_decide_eq_true h]; rfl⟩

/-- A first parameter given by position and by keyword. -/
theorem bindArgs_twice {V : Type} (I : Interp V) {m : Method} {k : Nm} {t : Tok} {ps : List (Nm × Tok)} (h : m.params = (k, t) :: ps) (p v : V)
    (pos : List V) (kw : Dict V) : bindArgs I m (p :: pos) ((k, v) :: kw) = .error .typeError := by
  unfold bindArgs
  rw [h]
  simp only [List.map_cons, List.zip_cons_cons, List.any_cons, Dict.find, if_true, Option.isSome_some, Bool.true_or]
  split <;> rfl

/-- The call of a method of another class with the object itself as an additional argument. -/
theorem step_twice {V : Type} (I : Interp V) (c : Cls) (n : ℕ) (t : Target) {m : Method} {k : Nm} {d : Tok} {ps : List (Nm × Tok)}
    (hr : resolve table c (·.set) t = some m) (h : m.params = (k, d) :: ps) (s : Obj V × Frame V) {v : V} (hv : Dict.find s.2.loc k = some v) :
    step I (call I table c (n + 1)) s (.call t .set [.const .self] false [(k, .arg k)] true) = .error .typeError := by
  simp only [step, evalList, evalKws, eval, hv]
  split
  · rfl
  · simp only [call, hr]
    show (match (match bindArgs I m (I.const Tok.self :: []) ((k, v) :: s.2.kw) with | .error e => _ | .ok f => _ : Except PyErr (Obj V)) with
      | .error e => _ | .ok σ => _ : Except PyErr (Obj V × Frame V)) = _
    rw [bindArgs_twice I h]

/-- Keywords alone always fit. -/
theorem bindArgs_nil {V : Type} (I : Interp V) (m : Method) (kw : Dict V) : ∃ f, bindArgs I m [] kw = .ok f ∧
    ∀ k d ps, m.params = (k, d) :: ps → ∃ v, Dict.find f.loc k = some v := by
  have h0 : (decide (m.params.length < ([] : List V).length) && !m.star) = false := by simp
  unfold bindArgs
  simp only [h0, List.zip_nil_right, List.any_nil, Bool.false_eq_true, if_false]
  refine ⟨_, rfl, ?_⟩
  intro k d ps h
  simp only [h, List.length_nil, List.drop_zero, List.map_cons, List.zip_nil_right, List.nil_append, Dict.find, if_true]
  exact ⟨_, rfl⟩

/-- `set_parameters` of `CoralReefsOptimization` and `EvolutionStrategyMp1` raises for all arguments: it passes the object itself as an argument. -/
theorem C84_raises_false (c : Cls) (hc : c = .CoralReefsOptimization ∨ c = .EvolutionStrategyMp1) (V : Type) (I : Interp V) (kw : Dict V)
    (σ : Obj V) : setParams I table c kw σ = .error .typeError := by
  rcases hc with rfl | rfl
  · obtain ⟨m, hm, st, l, hb⟩ : ∃ m, resolve table .CoralReefsOptimization (·.set) .own = some m ∧ ∃ ps l,
        m.params = (.population_size, .v25) :: ps ∧ m.body = .call (.above .CoralReefsOptimization) .set [.const .self] false
          [(.population_size, .arg .population_size)] true :: l := ⟨_, rfl, _, _, rfl, rfl⟩
    obtain ⟨f, hf, hv⟩ := bindArgs_nil I m kw
    obtain ⟨v, hv⟩ := hv _ _ _ hb.1
    unfold setParams call
    simp only [hm, hf, hb.2, steps]
    rw [step_twice I _ 10 _ (m := (cAlgorithm.set).get rfl) rfl rfl (σ, f) hv]
  · obtain ⟨m, hm, l, hb⟩ : ∃ m, resolve table .EvolutionStrategyMp1 (·.set) .own = some m ∧ ∃ l,
        m.body = .bind .mu (.pop .mu (.const .v40)) :: .call (.above .EvolutionStrategyMp1) .set [.const .self] false
          [(.mu, .arg .mu)] true :: l := ⟨_, rfl, _, rfl⟩
    obtain ⟨f, hf, -⟩ := bindArgs_nil I m kw
    unfold setParams call
    have hs : ∃ s v, step I (call I table .EvolutionStrategyMp1 11) (σ, f) (.bind .mu (.pop .mu (.const .v40))) = .ok s ∧
        Dict.find s.2.loc .mu = some v := by
      simp only [step, eval]
      cases Dict.find f.kw .mu with
      | none => exact ⟨_, I.const .v40, rfl, by simp only [Dict.find, if_true]⟩
      | some v => exact ⟨_, v, rfl, by simp only [Dict.find, if_true]⟩
    obtain ⟨s, v, hs, hv⟩ := hs
    simp only [hm, hf, hb, steps, hs]
    rw [step_twice I _ 10 _ (m := (cEvolutionStrategy1p1.set).get rfl) rfl rfl s hv]

end NiaPy.Params
