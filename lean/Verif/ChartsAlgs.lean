import Verif.Charts
import Verif.RanksMore
import Verif.Algo.SA

/-!
# C98: algorithms that follow a change of variables
-/

namespace NiaPy
variable {D N : ℕ} {a : Chart D} {env env' : Env (Vec D)}

theorem keepBetter_move {n : ℕ} (pop new : Fin n → Vec D) (fit newF : Fin n → Fl) :
    keepBetter (fun i => a.pt (pop i)) (fun i => a.pt (new i)) fit newF = (fun i => a.pt ((keepBetter pop new fit newF).1 i), (keepBetter pop new fit newF).2) := by
  unfold keepBetter
  refine Prod.ext (funext fun i => ?_) rfl
  dsimp only
  split <;> rfl

/-! ### Differential evolution -/
namespace DE
variable {E : Type} [Arith] [ExactOps]

/-- An individual in the new variables. -/
def Ind.move (a : Chart D) (e : Ind D E) : Ind D E := ⟨a.pt e.x, e.f, e.ext⟩

/-- A strategy that follows a change of variables. -/
def Moves (a : Chart D) (strat : Strategy D) : Prop := ∀ env env', Recharted a env env' → ∀ {n : ℕ} (pop : Fin n → Vec D) ic f cr xb,
  Mirrors a env env' a.pt (strat pop ic f cr xb) (strat (fun i => a.pt (pop i)) ic f cr (a.pt xb))

omit [ExactOps] in
theorem Moves.std {k : ℕ} {mutant : {n : ℕ} → (Fin n → Vec D) → Fin n → (Fin k → Fin n) → Fl → Vec D → Vec D}
    (hm : ∀ {n : ℕ} (pop : Fin n → Vec D) ic r f xb, mutant (fun i => a.pt (pop i)) ic r f (a.pt xb) = a.pt (mutant pop ic r f xb)) : Moves a (strategy k mutant) := by
  intro env env' hE n pop ic f cr xb
  unfold strategy
  refine .step hE .intFin fun j => .step hE (by unfold parents; numb) fun r => ?_
  beta_reduce
  rw [hm]
  unfold binomial
  refine .tabMD (φ := fun i => Fl.aff (a.s i) (a.c i)) fun i => .step hE .rand fun u => .pure' ?_
  split <;> rfl

theorem moves_rand1 : Moves a (crossRand1 (D := D)) := .std fun pop ic r f xb => by chart a
theorem moves_best1 : Moves a (crossBest1 (D := D)) := .std fun pop ic r f xb => by chart a
theorem moves_rand2 : Moves a (crossRand2 (D := D)) := .std fun pop ic r f xb => by chart a
theorem moves_best2 : Moves a (crossBest2 (D := D)) := .std fun pop ic r f xb => by chart a
theorem moves_curr2rand1 : Moves a (crossCurr2Rand1 (D := D)) := .std fun pop ic r f xb => by chart a
theorem moves_curr2best1 : Moves a (crossCurr2Best1 (D := D)) := .std fun pop ic r f xb => by chart a

omit [ExactOps] in
theorem tabM_cast' {α β : Type} {φ : α → β} {n m : ℕ} (h : n = m) {f : Fin n → Prog (Vec D) α} {k : Fin m → Prog (Vec D) β}
    (hf : ∀ i, Mirrors a env env' φ (f i) (k (i.cast h))) : Mirrors a env env' (fun r i => φ (r (i.cast h.symm))) (tabM n f) (tabM m k) := by
  subst h
  exact .tabM hf

theorem newInd_mirrors (hE : Recharted a env env') {opt : OptType} {ext : E} {x y : Vec D} (h : y = a.pt x := by rfl) :
    Mirrors a env env' (Ind.move a) (newInd opt ext x) (newInd opt ext y) := .bind' (.evaluate hE h) fun i => .pure' rfl

theorem randInd_mirrors (hE : Recharted a env env') {opt : OptType} {B : Box D} {ext : E} :
    Mirrors a env env' (Ind.move a) (randInd opt B ext) (randInd opt (B.move a) ext) := .bind' (.indivRandom hE) fun i => .pure' rfl

/-- Offspring in the new variables. -/
def moved (a : Chart D) (l : List (Ind D E)) (new : Fin l.length → Ind D E) (i : Fin (l.map (Ind.move a)).length) : Ind D E :=
  (new (i.cast (List.length_map _))).move a

/-- Producing offspring follows a change of variables. -/
def MovesEvolve (a : Chart D) (ev : Evolve D E) : Prop := ∀ env env', Recharted a env env' → ∀ l xb,
  Mirrors a env env' (moved a l) (ev l xb) (ev (l.map (Ind.move a)) (a.pt xb))

theorem pts_move (l : List (Ind D E)) (i : Fin l.length) : pts (l.map (Ind.move a)) (i.cast (List.length_map _).symm) = a.pt (pts l i) := by
  simp [pts, Ind.move]

theorem MovesEvolve.evolve {opt : OptType} {ext : E} {strat : Strategy D} (hs : Moves a strat) (f cr : Fl) : MovesEvolve a (evolve opt ext strat f cr) := by
  intro env env' hE l xb
  refine tabM_cast' (List.length_map _).symm fun i => ?_
  beta_reduce
  rw [strat_cast strat _ (pop := fun i => a.pt (pts l i)) pts_move_cast]
  exact .bind' (hs _ _ hE _ _ _ _ _) fun x => newInd_mirrors hE
where
  pts_move_cast {l : List (Ind D E)} (i : Fin l.length) : pts (l.map (Ind.move a)) (i.cast (List.length_map _).symm) = a.pt (pts l i) := pts_move l i

theorem MovesEvolve.evolveMulti {opt : OptType} {ext : E} {strats : List (Strategy D)} (hs : ∀ st ∈ strats, Moves a st) (f cr : Fl) :
    MovesEvolve a (evolveMulti opt ext strats f cr) := by
  intro env env' hE l xb
  refine tabM_cast' (List.length_map _).symm fun i => ?_
  refine .bind' (φ := List.map (Ind.move a)) ?_ fun c => .argminRec (val := fun e : Ind D E => e.f) (val' := fun e : Ind D E => e.f) (φ := Ind.move a) fun _ => rfl
  induction strats with
  | nil => exact .pure' rfl
  | cons st strats ih =>
    refine .bind ?_ fun a => .bind (ih fun s h => hs s (List.mem_cons_of_mem _ h)) fun r => .pure' rfl
    beta_reduce
    rw [strat_cast st _ (pop := fun i => a.pt (pts l i)) (pts_move l)]
    exact .bind' (hs st List.mem_cons_self _ _ hE _ _ _ _ _) fun x => newInd_mirrors hE

theorem survivors_move (l : List (Ind D E)) (new : Fin l.length → Ind D E) :
    survivors (l.map (Ind.move a)) (moved a l new) = (survivors l new).map (Ind.move a) := by
  refine List.ext_getElem (by simp [survivors]) fun i h1 h2 => ?_
  simp only [survivors, moved, List.getElem_ofFn, List.getElem_map, List.get_eq_getElem, Fin.val_cast, Ind.move, Fin.cast_mk]
  split <;> rfl

theorem best_mirrors {l : List (Ind D E)} {xb : Vec D} {fxb : Fl} :
    Mirrors a env env' a.sol (best l xb fxb) (best (l.map (Ind.move a)) (a.pt xb) fxb) := by
  unfold best
  rw [show (l.map (Ind.move a)).map (·.f) = l.map (·.f) by simp [List.map_map, Function.comp_def, Ind.move]]
  exact .getBest (by simp [List.map_map, Function.comp_def, Ind.move])

/-- The state after an iteration in the new variables. -/
def mv (a : Chart D) (r : List (Ind D E) × Vec D × Fl) : List (Ind D E) × Vec D × Fl := (r.1.map (Ind.move a), a.sol r.2)

/-- The rule of selection of differential evolution. -/
abbrev Select (D : ℕ) (E : Type) := (l : List (Ind D E)) → (Fin l.length → Ind D E) → Vec D → Fl → Prog (Vec D) (List (Ind D E) × Vec D × Fl)

theorem select_mirrors (l : List (Ind D E)) (new : Fin l.length → Ind D E) (xb : Vec D) (fxb : Fl) :
    Mirrors a env env' (mv a) (select l new xb fxb) (select (l.map (Ind.move a)) (moved a l new) (a.pt xb) fxb) := by
  unfold select
  rw [survivors_move]
  exact .bind' best_mirrors fun b => .pure' rfl

theorem carries {opt : OptType} {B : Box D} {N : ℕ} {ext : E} {ev : Evolve D E} (hev : MovesEvolve a ev) {sel sel' : Select D E}
    (hsel : ∀ env env', Recharted a env env' → ∀ l new xb fxb, Mirrors a env env' (mv a) (sel l new xb fxb) (sel' (l.map (Ind.move a)) (moved a l new) (a.pt xb) fxb))
    {post : List (Ind D E) → Prog (Vec D) (List (Ind D E))}
    (hpost : ∀ env env', Recharted a env env' → ∀ l, Mirrors a env env' (List.map (Ind.move a)) (post l) (post (l.map (Ind.move a)))) :
    Carries a (mk opt B N ext (iter ev sel post)) (mk opt (B.move a) N ext (iter ev sel' post)) (List.map (Ind.move a)) where
  pop l := by
    have key : ∀ l : List (Ind D E), (l.map (Ind.move a)).map (·.x) = (l.map (·.x)).map a.pt := fun l => by simp [List.map_map, Function.comp_def, Ind.move]
    exact key l
  fit l := by
    have key : ∀ l : List (Ind D E), (l.map (Ind.move a)).map (·.f) = l.map (·.f) := fun l => by simp [List.map_map, Function.comp_def, Ind.move]
    exact key l
  init env env' hE := by
    refine .bind' (.tabM fun i => randInd_mirrors hE) fun p => .pure' ?_
    change _ = List.map _ (List.ofFn p)
    rw [List.map_ofFn]
    rfl
  iter env env' hE l xb fxb := by
    refine .bind' (hev env env' hE l xb) fun new => .bind' (hsel env env' hE l new xb fxb) fun r => ?_
    exact .bind' (hpost env env' hE _) fun l => .bind' best_mirrors fun b => .pure' rfl

theorem halve_move (l : List (Ind D E)) : halve (l.map (Ind.move a)) = (halve l).map (Ind.move a) := by
  refine List.ext_getElem (by simp [halve]) fun i h1 h2 => ?_
  simp only [halve, List.getElem_ofFn, List.getElem_map, List.get_eq_getElem, Ind.move, List.length_map, Fin.val_cast]
  split <;> rfl

theorem reduce_mirrors (hE : Recharted a env env') (pMax rp : ℕ) (l : List (Ind D E)) :
    Mirrors a env env' (List.map (Ind.move a)) (reduce pMax rp l) (reduce pMax rp (l.map (Ind.move a))) := by
  unfold reduce
  rw [halve_move, List.length_map]
  exact .step hE .look fun v => .ite Iff.rfl (fun _ => .throw) fun _ => .ite Iff.rfl (fun _ => .pure' rfl) fun _ => .pure' rfl

/-- Differential evolution. -/
theorem C98_de (opt : OptType) (B : Box D) (N : ℕ) {strat : Strategy D} (hs : Moves a strat) (f cr : Fl) :
    Carries a (alg opt B N strat f cr) (alg opt (B.move a) N strat f cr) (List.map (Ind.move a)) :=
  carries (.evolve hs f cr) (fun _ _ _ => select_mirrors) fun _ _ _ _ => .pure' rfl

/-- Differential evolution with several strategies. -/
theorem C98_multi (opt : OptType) (B : Box D) (N : ℕ) {strats : List (Strategy D)} (hs : ∀ st ∈ strats, Moves a st) (f cr : Fl) :
    Carries a (algMulti opt B N strats f cr) (algMulti opt (B.move a) N strats f cr) (List.map (Ind.move a)) :=
  carries (.evolveMulti hs f cr) (fun _ _ _ => select_mirrors) fun _ _ _ _ => .pure' rfl

/-- Differential evolution with dynamic population size. -/
theorem C98_dyn (opt : OptType) (B : Box D) (N : ℕ) {strat : Strategy D} (hs : Moves a strat) (f cr : Fl) (pMax rp : ℕ) :
    Carries a (algDyn opt B N strat f cr pMax rp) (algDyn opt (B.move a) N strat f cr pMax rp) (List.map (Ind.move a)) :=
  carries (.evolve hs f cr) (fun _ _ _ => select_mirrors) fun _ _ hE l => reduce_mirrors hE pMax rp l

theorem C98_dyn_multi (opt : OptType) (B : Box D) (N : ℕ) {strats : List (Strategy D)} (hs : ∀ st ∈ strats, Moves a st) (f cr : Fl) (pMax rp : ℕ) :
    Carries a (algDynMulti opt B N strats f cr pMax rp) (algDynMulti opt (B.move a) N strats f cr pMax rp) (List.map (Ind.move a)) :=
  carries (.evolveMulti hs f cr) (fun _ _ _ => select_mirrors) fun _ _ hE l => reduce_mirrors hE pMax rp l

/-! #### Aging -/

omit [ExactOps] in
theorem older_move (age : AgeArgs → Fl) (avg worst bestF : Fl) (l : List (Ind D ℕ)) :
    older age avg worst bestF (l.map (Ind.move a)) = (older age avg worst bestF l).map (List.map (Ind.move a)) := by
  induction l with
  | nil => rfl
  | cons e l ih =>
    simp only [List.map_cons, older, ih]
    rw [show (e.move a).f = e.f from rfl, show (e.move a).ext = e.ext from rfl]
    cases pyRound (age ⟨e.f, avg, worst, bestF⟩) with
    | error e => rfl
    | ok life =>
      cases older age avg worst bestF l with
      | error e => rfl
      | ok r =>
        simp only [bind, Except.bind, pure, Except.pure, Except.map]
        split <;> rfl

omit [ExactOps] in
theorem map_f (l : List (Ind D E)) : (l.map (Ind.move a)).map (·.f) = l.map (·.f) := by simp [List.map_map, Function.comp_def, Ind.move]

theorem aging_mirrors (hE : Recharted a env env') (opt : OptType) (B : Box D) (N : ℕ) (age : AgeArgs → Fl) (l : List (Ind D ℕ)) :
    Mirrors a env env' (List.map (Ind.move a)) (aging opt B N age l) (aging opt (B.move a) N age (l.map (Ind.move a))) := by
  unfold aging
  rw [map_f]
  refine .bind' (.argminRec (val := fun e : Ind D ℕ => e.f) (φ := Ind.move a) fun _ => rfl) fun b => .bind' (.ofExcept (older_move age _ _ b.f l)) fun l' => ?_
  exact .ite (by simp) (fun _ => .mapMS fun _ _ => randInd_mirrors hE) fun _ => .pure' rfl

theorem increment_mirrors (hE : Recharted a env env') (opt : OptType) (B : Box D) (N : ℕ) (p : AgePar) :
    Mirrors a env env' (List.map (Ind.move a)) (increment opt B N p) (increment opt (B.move a) N p) := .step hE .look fun v => .mapMS fun _ _ => randInd_mirrors hE

theorem selectAging_mirrors (hE : Recharted a env env') (opt : OptType) (B : Box D) (N : ℕ) (p : AgePar) (age : AgeArgs → Fl) (l : List (Ind D ℕ))
    (new : Fin l.length → Ind D ℕ) (xb : Vec D) (fxb : Fl) : Mirrors a env env' (mv a) (selectAging opt B N p age l new xb fxb)
      (selectAging opt (B.move a) N p age (l.map (Ind.move a)) (moved a l new) (a.pt xb) fxb) := by
  refine .bind' (select_mirrors l new xb fxb) fun r => .bind' (increment_mirrors hE opt B N p) fun born => ?_
  dsimp only [mv]
  rw [← List.map_append]
  exact .bind' best_mirrors fun b => .bind' (aging_mirrors hE opt B N age _) fun l => .pure' rfl

omit [ExactOps] in
theorem choiceFin_cast (hE : Recharted a env env') {n m d : ℕ} (h : n = m) :
    Mirrors a env env' (fun r k => (r k).cast h) (choiceFin n d : Prog (Vec D) (Fin d → Fin n)) (choiceFin m d) := by
  subst h
  exact .numb hE .choiceFin

omit [ExactOps] in
theorem mapM_cast {α β : Type} {φ : α → β} {n m : ℕ} (h : n = m) {f : Fin n → Prog (Vec D) α} {k : Fin m → Prog (Vec D) β}
    (hf : ∀ i, Mirrors a env env' φ (f i) (k (i.cast h))) : Mirrors a env env' (List.map φ) (mapM' (List.finRange n) f) (mapM' (List.finRange m) k) := by
  subst h
  exact .mapMS fun i _ => hf i

theorem decrement_mirrors (hE : Recharted a env env') (N : ℕ) (p : AgePar) (l : List (Ind D ℕ)) :
    Mirrors a env env' (List.map (Ind.move a)) (decrement N p l) (decrement N p (l.map (Ind.move a))) := by
  refine .step hE .look fun v => .ite (by simp) (fun _ => .pure' rfl) fun _ => .bind' (choiceFin_cast hE (List.length_map _).symm) fun ni => ?_
  refine .bind' (mapM_cast (φ := Option.map (Ind.move a)) (List.length_map _).symm fun i => ?_) fun keep => .pure' ?_
  · have hc : (∃ k, Fin.cast (List.length_map _).symm (ni k) = Fin.cast (List.length_map (Ind.move a)).symm i) ↔ ∃ k, ni k = i := by simp [Fin.ext_iff]
    refine .ite hc (fun _ => .step hE .rand fun r => .pure' ?_) fun _ => .pure' ?_
    · split <;> simp
    · simp
  · simp [List.filterMap_map, List.map_filterMap, Function.comp_def]

theorem C98_aging (opt : OptType) (B : Box D) (N : ℕ) {strat : Strategy D} (hs : Moves a strat) (f cr : Fl) (p : AgePar) (age : AgePar → AgeArgs → Fl) :
    Carries a (algAging opt B N strat f cr p age) (algAging opt (B.move a) N strat f cr p age) (List.map (Ind.move a)) :=
  carries (.evolve hs f cr) (fun _ _ hE => selectAging_mirrors hE opt B N p (age p)) fun _ _ hE l => by
    unfold postAging
    rw [List.length_map]
    exact .ite Iff.rfl (fun _ => decrement_mirrors hE N p l) fun _ => .pure' rfl

end DE

/-! ### Self-adaptive differential evolution -/
namespace JDE
open DE
variable [Arith] [ExactOps]

theorem adapt_numb (p : Par) (e : SA) : (adapt p e : Prog (Vec D) SA).Numb := by unfold adapt newF newCR; numb

theorem forFin_cast {σ τ : Type} {φ : σ → τ} {n m : ℕ} (h : n = m) {f : Fin n → σ → Prog (Vec D) σ} {k : Fin m → τ → Prog (Vec D) τ} {s : σ} {t : τ}
    (hf : ∀ i s, Mirrors a env env' φ (f i s) (k (i.cast h) (φ s))) (ht : t = φ s) : Mirrors a env env' φ (forFin n f s) (forFin m k t) := by
  subst h
  exact .forFin hf ht

theorem move_mirrors (hE : Recharted a env env') {strat : Strategy D} (hs : Moves a strat) (l : List (Ind D SA)) (ps : Fin l.length → SA) (xb : Vec D) :
    Mirrors a env env' (fun xs i => a.pt (xs (i.cast (List.length_map _)))) (move strat l ps xb)
      (move strat (l.map (Ind.move a)) (fun i => ps (i.cast (List.length_map _))) (a.pt xb)) := by
  refine forFin_cast (List.length_map _).symm (fun i s => ?_) (funext fun i => ?_)
  · beta_reduce
    rw [strat_cast strat (List.length_map _).symm (pop := fun i => a.pt (s i)) fun _ => rfl]
    refine .bind' (hs _ _ hE _ _ _ _ _) fun x => .pure' (funext fun i => ?_)
    simp only [Function.update_apply, Fin.ext_iff, Fin.val_cast]
    split <;> rfl
  · exact pts_move l (i.cast (List.length_map _))

theorem evolve_moves {strat : Strategy D} (hs : Moves a strat) (p : Par) : MovesEvolve a (evolve strat p) := by
  intro env env' hE l xb
  refine .bind' (φ := fun ps i => ps (i.cast (List.length_map _))) (tabM_cast' (φ := id) (List.length_map _).symm fun i => ?_) fun ps => ?_
  · have : ((l.map (Ind.move a)).get (i.cast (List.length_map _).symm)).ext = (l.get i).ext := by simp [Ind.move]
    rw [this]
    exact .numb hE (adapt_numb p _)
  · refine .bind' (move_mirrors hE hs l ps xb) fun xs => tabM_cast' (List.length_map _).symm fun i => ?_
    exact .bind' (.repair hE) fun x => .bind' (.eval hE) fun v => .pure' rfl

theorem C98_jde (opt : OptType) (B : Box D) (N : ℕ) {strat : Strategy D} (hs : Moves a strat) (p : Par) :
    Carries a (alg opt B N strat p) (alg opt (B.move a) N strat p) (List.map (Ind.move a)) :=
  carries (evolve_moves hs p) (fun _ _ _ => select_mirrors) fun _ _ _ _ => .pure' rfl

theorem C98_jde_multi (opt : OptType) (B : Box D) (N : ℕ) {strats : List (Strategy D)} (hs : ∀ st ∈ strats, Moves a st) (f cr : Fl) :
    Carries a (algMulti opt B N strats f cr) (algMulti opt (B.move a) N strats f cr) (List.map (Ind.move a)) :=
  carries (.evolveMulti hs f cr) (fun _ _ _ => select_mirrors) fun _ _ _ _ => .pure' rfl

end JDE

/-! ### Cuckoo search -/
namespace CS
variable [Arith] [ExactOps]

def St.move (a : Chart D) (s : St D N) : St D N := ⟨fun i => a.pt (s.pop i), s.fit⟩

theorem iter_mirrors (hE : Recharted a env env') (pa : Fl) (s : St D N) (xb : Vec D) (fxb : Fl) :
    Mirrors a env env' (fun r => (St.move a r.1, a.sol r.2)) (iter pa s xb fxb) (iter pa (s.move a) (a.pt xb) fxb) := by
  refine .bind' (φ := fun r i => a.pt (r i)) ?_ fun new => .bind' (.evalRows hE) fun newF => ?_
  · refine .step hE (by unfold levyRows; numb) fun l => .step hE (by numb) fun z => .repairRows hE fun i => ?_
    unfold St.move; chart a
  · dsimp only [St.move]
    rw [keepBetter_move]
    refine .bind' .getBestRows fun b => .bind' (φ := fun r i => a.pt (r i)) ?_ fun new => .bind' (.evalRows hE) fun newF => ?_
    · refine .step hE (by numb) fun l => .step hE .permIdx fun i => .step hE .permIdx fun j => .step hE .rand fun r => .repairRows hE fun i => ?_
      chart a
    · dsimp only
      rw [keepBetter_move]
      exact .bind' .getBestRows fun b => .pure' rfl

theorem C98_cs (B : Box D) (N : ℕ) (pa : Fl) : Carries a (alg B N pa) (alg (B.move a) N pa) (St.move a) where
  pop s := ofFn_move _
  fit s := rfl
  init env env' hE := .bind' (.defaultNumpyInit hE) fun r => .pure' rfl
  iter env env' hE s xb fxb := iter_mirrors hE pa s xb fxb

end CS

/-! ### Flower pollination -/
namespace FPA
variable [Arith] [ExactOps]

def St.move (a : Chart D) (s : St D N) : St D N := ⟨fun i => a.pt (s.pop i), s.fit, fun i => a.pt (s.sols i)⟩

def mv (a : Chart D) (r : St D N × Vec D × Fl) : St D N × Vec D × Fl := (r.1.move a, a.sol r.2)

theorem step_mirrors (hE : Recharted a env env') (p : Fl) (i : Fin N) (s : St D N × Vec D × Fl) :
    Mirrors a env env' (mv a) (step p i s) (step p i (mv a s)) := by
  refine .bind' (φ := a.pt) ?_ fun y => .bind' (.eval hE) fun v => .pure' ?_
  · refine .step hE .rand fun r => .ite Iff.rfl (fun _ => .step hE .levyVec fun l => .repair hE ?_) fun _ => .step hE .choiceFin fun jk => .step hE .rand fun r => .repair hE ?_
    · unfold St.move; chart a
    · unfold St.move; chart a
  · simp only [mv, St.move, update_move, Chart.sol, id_eq]
    rw [getBest1_move]
    split <;> simp only [update_move] <;> rfl

theorem C98_fpa (B : Box D) (N : ℕ) (p : Fl) : Carries a (alg B N p) (alg (B.move a) N p) (St.move a) where
  pop s := ofFn_move _
  fit s := rfl
  init env env' hE := .bind' (.defaultNumpyInit hE) fun r => .pure' rfl
  iter env env' hE s xb fxb := .forFin (φ := mv a) (s := (s, xb, fxb)) (fun i s => step_mirrors hE p i s)

end FPA

/-! ### Moth flame optimizer -/
namespace MFO
variable [Arith] [ExactOps]

def St.move (a : Chart D) (s : St D N) : St D N := ⟨fun i => a.pt (s.pop i), s.fit⟩

theorem move_mirrors (hE : Recharted a env env') (c : Fl) (x own flame : Vec D) :
    Mirrors a env env' a.pt (MFO.move c x own flame) (MFO.move c (a.pt x) (a.pt own) (a.pt flame)) := by
  refine .tabMD (φ := fun i => Fl.aff (a.s i) (a.c i)) fun j => .step hE .rand fun u => .pure' ?_
  simp only [Chart.pt, Fl.aff_sub, Fl.aff_abs (a.pos j), Fl.aff_mul' (a.pos j), Fl.aff_add']

omit [ExactOps] in
theorem pyIndex_move (l : Fin N → Vec D) (k : ℤ) : pyIndex (fun i => a.pt (l i)) k = (pyIndex l k).map a.pt := by
  unfold pyIndex rowAt
  split <;> split <;> rfl

theorem iter_mirrors (hE : Recharted a env env') (s : St D N) (xb : Vec D) (fxb : Fl) :
    Mirrors a env env' (fun r => (St.move a r.1, a.sol r.2)) (iter s xb fxb) (iter (s.move a) (a.pt xb) fxb) := by
  refine .step hE .sortIdx fun si => .step hE .look fun v => .step hE .ofExcept fun fn => .bind' (φ := fun r i => a.pt (r i)) ?_ fun pop => ?_
  · refine .tabM fun i => .bind' (φ := a.pt) (.ofExcept ?_) fun flame => move_mirrors hE _ _ _ _
    split
    · rfl
    · exact pyIndex_move _ _
  · exact .bind' (.repairRows hE fun i => rfl) fun pop => .bind' (.evalRows hE) fun fit => .bind' .getBestRows fun b => .pure' rfl

theorem C98_mfo (B : Box D) (N : ℕ) : Carries a (alg B N) (alg (B.move a) N) (St.move a) where
  pop s := ofFn_move _
  fit s := rfl
  init env env' hE := .bind' (.defaultNumpyInit hE) fun r => .pure' rfl
  iter env env' hE s xb fxb := iter_mirrors hE s xb fxb

end MFO

/-! ### Particle swarm optimization -/
namespace PSO
variable [Arith] [ExactOps]

def St.remap (a : Chart D) (s : St D N) : St D N := ⟨fun i => a.pt (s.pop i), s.fit, fun i => a.pt (s.pb i), s.pbf, fun i => a.dir (s.v i)⟩

/-- The parameters with the velocity bounds in the new units. -/
def Par.move (a : Chart D) (p : Par D) : Par D := { p with vmin := a.dir p.vmin, vmax := a.dir p.vmax }

/-- The repair function for velocities follows a change of units. -/
def MovesRep (a : Chart D) (rep : Vec D → Vec D → Vec D → Vec D) : Prop := ∀ v lo hi, rep (a.dir v) (a.dir lo) (a.dir hi) = a.dir (rep v lo hi)

omit [Arith] [ExactOps] in
theorem MovesRep.shift (h : a.Shift) (rep : Vec D → Vec D → Vec D → Vec D) : MovesRep a rep := fun v lo hi => by simp only [h.dir]

/-- The velocity rule follows a change of variables. -/
def MovesVel (a : Chart D) (f f' : Vel D) : Prop := ∀ env env', Recharted a env env' → ∀ v x pb gb,
  Mirrors a env env' a.dir (f v x pb gb) (f' (a.dir v) (a.pt x) (a.pt pb) (a.pt gb))

theorem MovesVel.vel {p : Par D} (hr : MovesRep a p.rep) (w lo hi : Vec D) : MovesVel a (vel p w lo hi) (vel (p.move a) w (a.dir lo) (a.dir hi)) := by
  intro env env' hE v x pb gb
  refine .step hE .randVec fun r1 => .step hE .randVec fun r2 => .pure' ?_
  rw [← hr]
  change p.rep _ _ _ = _
  congr 1
  change (fun j => w j * a.dir v j + p.c1 * r1 j * (a.pt pb j - a.pt x j) + p.c2 * r2 j * (a.pt gb j - a.pt x j)) = _
  chart a

theorem MovesVel.velU {p : Par D} (hr : MovesRep a p.rep) (w lo hi : Vec D) : MovesVel a (velU p w lo hi) (velU (p.move a) w (a.dir lo) (a.dir hi)) := by
  intro env env' hE v x pb gb
  refine .step hE .randVec fun r3 => .step hE .randVec fun r1 => .step hE .randVec fun r2 => .pure' ?_
  rw [← hr]
  change p.rep _ _ _ = _
  congr 1
  change (fun j => w j * a.dir v j + p.c1 * r1 j * (a.pt pb j - a.pt x j) * r3 j + p.c2 * r2 j * (a.pt gb j - a.pt x j) * (Fl.ofNat 1 - r3 j)) = _
  chart a

def mv (a : Chart D) (r : St D N × Vec D × Fl) : St D N × Vec D × Fl := (r.1.remap a, a.sol r.2)

omit [Arith] [ExactOps] in
theorem record_move (s : St D N) (i : Fin N) (v x : Vec D) (f : Fl) : (s.remap a).record i (a.dir v) (a.pt x) f = (s.record i v x f).remap a := by
  have hu : ∀ (g : Fin N → Vec D) (y : Vec D), Function.update (fun k => a.dir (g k)) i (a.dir y) = fun k => a.dir (Function.update g i y k) := by
    intro g y
    funext k
    by_cases h : k = i
    · subst h; simp
    · simp [h]
  refine St.mk.injEq .. ▸ ⟨update_move .., rfl, ?_, rfl, hu _ _⟩
  change Function.update (fun i => a.pt (s.pb i)) i (if f < s.pbf i then a.pt x else a.pt (s.pb i)) = fun k => a.pt (Function.update s.pb i _ k)
  rw [← update_move]
  congr 1
  exact (apply_ite a.pt _ _ _).symm

omit [Arith] [ExactOps] in
theorem global_move (nested : Bool) (pbf : Fl) (x : Vec D) (f : Fl) (xb : Vec D) (fxb : Fl) :
    global nested pbf (a.pt x) f (a.pt xb) fxb = a.sol (global nested pbf x f xb fxb) := by
  unfold global
  rw [betterLt_move]
  split <;> rfl

theorem particle_mirrors (hE : Recharted a env env') {vel vel' : Vel D} (hv : MovesVel a vel vel') (nested : Bool) (i : Fin N) (s : St D N × Vec D × Fl) :
    Mirrors a env env' (mv a) (particle vel nested i s) (particle vel' nested i (mv a s)) := by
  refine .bind' (hv _ _ hE _ _ _ _) fun v => .bind' (.repair hE (by unfold mv St.remap; chart a)) fun x => .bind' (.eval hE) fun f => .pure' ?_
  exact Prod.ext (record_move s.1 i v x f) (global_move nested _ x f _ _)

theorem mean_move (rows : Fin N → Vec D) : mean (fun i => a.pt (rows i)) = a.pt (mean rows) := funext fun j => Fl.aff_mean (a.pos j) _

theorem iter_mirrors (hE : Recharted a env env') {B : Box D} {vel vel' : Vel D} (hv : MovesVel a vel vel') (c : Bool) (s : St D N) (xb : Vec D) (fxb : Fl) :
    Mirrors a env env' (mv a) (iter B vel c 0 s xb fxb) (iter (B.move a) vel' c 0 (s.remap a) (a.pt xb) fxb) := by
  refine .bind' (.forFin (φ := mv a) (s := (s, xb, fxb)) fun i s => particle_mirrors hE hv false i s) fun r => ?_
  refine .bind' (φ := a.sol) ?_ fun b => .pure' rfl
  unfold center
  have hm : mean (St.remap a r.1).pop = a.pt (mean r.1.pop) := mean_move _
  refine .ite Iff.rfl (fun _ => .bind' (.eval hE hm) fun fc => .pure' ?_) fun _ => .pure' rfl
  simp only [mv, hm, Chart.sol, id]
  split <;> rfl

/-- Particle swarm optimization, opposition velocity clamping without mutations and center particle swarm optimization; the velocity bounds are given in the new units. -/
theorem C98_pso (B : Box D) (N : ℕ) {p : Par D} (hr : MovesRep a p.rep) (u c : Bool) : Carries a (alg B N p u c 0) (alg (B.move a) N (p.move a) u c 0) (St.remap a) where
  pop s := ofFn_move _
  fit s := rfl
  init env env' hE := .bind' (.defaultNumpyInit hE) fun r => .pure' (by
    have : a.dir (fun _ => Fl.fin 0) = fun _ => Fl.fin 0 := by funext j; simp [Chart.dir]
    simp only [St.remap, this]
    rfl)
  iter env env' hE s xb fxb := by
    refine iter_mirrors hE ?_ c s xb fxb
    cases u
    · exact .vel hr _ _ _
    · exact .velU hr _ _ _

end PSO

/-! ### Artificial bee colony -/
namespace ABC
variable [Arith] [ExactOps]

def Loc.move (a : Chart D) (s : Loc D N) : Loc D N := ⟨⟨fun i => (s.pop i).move a, s.trials⟩, a.pt s.xb, s.fxb⟩
def St.move (a : Chart D) (s : St D N) : St D N := ⟨fun i => (s.pop i).move a, s.trials⟩

omit [Arith] [ExactOps] in
theorem update_indiv {n : ℕ} (f : Fin n → Indiv D) (i : Fin n) (y : Indiv D) :
    Function.update (fun k => (f k).move a) i (y.move a) = fun k => (Function.update f i y k).move a := by
  funext k
  by_cases h : k = i
  · subst h; simp
  · simp [h]

omit [Arith] [ExactOps] in
theorem improve_move (i : Fin (N / 2)) (y : Indiv D) (s : Loc D N) : improve i (y.move a) (s.move a) = (improve i y s).move a := by
  unfold improve
  simp only [Loc.move, update_indiv]
  rw [show (y.move a).x = a.pt y.x from rfl, show (y.move a).f = y.f from rfl, betterLt_move]
  rfl

theorem candidate_mirrors (hE : Recharted a env env') (xs xn : Vec D) (k : Fin D) :
    Mirrors a env env' (Indiv.move a) (candidate xs xn k) (candidate (a.pt xs) (a.pt xn) k) := by
  refine .step hE .unif fun u => .evaluate hE (funext fun j => ?_)
  by_cases h : j = k
  · subst h
    simp only [Function.update_self, Chart.pt, Fl.aff_sub, Fl.aff_mul (a.pos j), Fl.aff_add]
  · simp only [Function.update_of_ne h, Chart.pt]

omit [ExactOps] in
theorem scout_mirrors (hE : Recharted a env env') (opt : OptType) (B : Box D) (i : Fin (N / 2)) (s : Loc D N) :
    Mirrors a env env' (Loc.move a) (scout opt B i s) (scout opt (B.move a) i (s.move a)) := by
  refine .bind' (.indivRandom hE) fun y => .pure' ?_
  exact improve_move i y s

theorem employed_mirrors (hE : Recharted a env env') (opt : OptType) (B : Box D) (limit : ℕ) (i : Fin (N / 2)) (s : Loc D N) :
    Mirrors a env env' (Loc.move a) (employed opt B limit i s) (employed opt (B.move a) limit i (s.move a)) := by
  refine .step hE .scaleIdx fun k => .step hE .scaleIdx fun n => .bind' (candidate_mirrors hE _ _ k) fun y => .ite Iff.rfl (fun _ => .pure' (improve_move i y s)) fun _ => ?_
  exact .ite Iff.rfl (fun _ => scout_mirrors hE opt B i _) fun _ => .pure' rfl

omit [Arith] [ExactOps] in
theorem neighbor_numb (i : Fin (N / 2)) (n : ℕ) : (neighbor i n : Prog (Vec D) _).Numb := by
  induction n with
  | zero => trivial
  | succ n ih =>
    refine .bind' .scaleIdx fun k => ?_
    split
    · exact ih
    · trivial

theorem onlooker_mirrors (hE : Recharted a env env') (opt : OptType) (B : Box D) (limit fuel : ℕ) (last i : Fin (N / 2)) (s : Loc D N) :
    Mirrors a env env' (Loc.move a) (onlooker opt B limit fuel last i s) (onlooker opt (B.move a) limit fuel last i (s.move a)) := by
  refine .step hE .scaleIdx fun k => .step hE (neighbor_numb i fuel) fun n => .bind' (candidate_mirrors hE _ _ k) fun y =>
    .ite Iff.rfl (fun _ => .pure' (improve_move i y s)) fun _ => ?_
  exact .ite Iff.rfl (fun _ => scout_mirrors hE opt B last _) fun _ => .pure' rfl

theorem onlookers_mirrors (hE : Recharted a env env') (opt : OptType) (B : Box D) (limit fuel0 : ℕ) (prob : Fin (N / 2) → Fl) (last : Fin (N / 2)) (fuel t : ℕ) (i : Fin (N / 2))
    (s : Loc D N) : Mirrors a env env' (Loc.move a) (onlookers opt B limit fuel0 prob last fuel t i s) (onlookers opt (B.move a) limit fuel0 prob last fuel t i (s.move a)) := by
  induction fuel generalizing t i s with
  | zero => exact .throw
  | succ fuel ih =>
    unfold onlookers
    refine .ite Iff.rfl (fun _ => .step hE .rand fun r => .bind' (φ := fun p => (p.1, p.2.move a)) ?_ fun p => ih p.1 _ p.2) fun _ => .pure' rfl
    exact .ite Iff.rfl (fun _ => .bind' (onlooker_mirrors hE opt B limit fuel0 last i s) fun s => .pure' rfl) fun _ => .pure' rfl

theorem C98_abc (opt : OptType) (B : Box D) (N limit fuel : ℕ) : Carries a (alg opt B N limit fuel) (alg opt (B.move a) N limit fuel) (St.move a) where
  pop s := ofFn_move _
  fit s := rfl
  init env env' hE := .bind' (.defaultIndividualInit hE) fun r => .pure' rfl
  iter env env' hE s xb fxb := by
    refine .bind' (.forFin (φ := Loc.move a) (s := { s with xb, fxb }) fun i s => employed_mirrors hE opt B limit i s) fun s => .bind' (φ := Loc.move a) ?_ fun s => .pure' rfl
    by_cases h : 0 < N / 2
    · simp only [dif_pos h]
      exact onlookers_mirrors hE ..
    · simp only [dif_neg h]
      exact .pure' rfl

end ABC

/-! ### Nelder-Mead -/
namespace NM
variable [Arith] [ExactOps]

def St.move (a : Chart D) (s : St D N) : St D N := ⟨fun i => a.pt (s.pop i), s.fit⟩

theorem centroid_move (pop : Fin N → Vec D) : centroid (fun i => a.pt (pop i)) = a.pt (centroid pop) := funext fun j => Fl.aff_mean (a.pos j) _

theorem away_move (c : Fl) (x0 x : Vec D) : away c (a.pt x0) (a.pt x) = a.pt (away c x0 x) := by unfold away; chart a

omit [Arith] [ExactOps] in
theorem setLast_move (s : St D N) (h : 0 < N) (x : Vec D) (v : Fl) : setLast (s.move a) h (a.pt x) v = (setLast s h x v).move a := by
  simp only [setLast, St.move, update_move]

theorem shrunk_move (p : Par) (s : St D N) (i : Fin (N - 1)) : shrunk p (s.move a) i = a.pt (shrunk p s i) := by unfold shrunk St.move; chart a

theorem shrink_mirrors (hE : Recharted a env env') (p : Par) (s : St D N) : Mirrors a env env' (St.move a) (shrink p s) (shrink p (s.move a)) := by
  unfold shrink
  rw [show shrunk p (s.move a) = fun i => a.pt (shrunk p s i) from funext (shrunk_move p s)]
  refine .bind' (.evalRows hE) fun f => .pure' ?_
  simp only [St.move, setTail, St.mk.injEq]
  refine ⟨funext fun i => ?_, rfl⟩
  unfold setTail
  split <;> rfl

theorem contract_mirrors (hE : Recharted a env env') (p : Par) (s : St D N) (h : 0 < N) (x0 : Vec D) :
    Mirrors a env env' (St.move a) (contract p s h x0) (contract p (s.move a) h (a.pt x0)) := by
  have hx : away p.rho (a.pt x0) ((s.move a).pop ⟨N - 1, by omega⟩) = a.pt (away p.rho x0 (s.pop ⟨N - 1, by omega⟩)) := away_move _ _ _
  unfold contract
  dsimp only
  rw [hx]
  exact .bind' (.eval hE) fun rc => .ite Iff.rfl (fun _ => .pure' (setLast_move s h _ _)) fun _ => shrink_mirrors hE p s

theorem expand_mirrors (hE : Recharted a env env') (p : Par) (s : St D N) (h : 0 < N) (x0 xr : Vec D) (rs : Fl) :
    Mirrors a env env' (St.move a) (expand p s h x0 xr rs) (expand p (s.move a) h (a.pt x0) (a.pt xr) rs) := by
  have hx : away p.gamma (a.pt x0) ((s.move a).pop ⟨N - 1, by omega⟩) = a.pt (away p.gamma x0 (s.pop ⟨N - 1, by omega⟩)) := away_move _ _ _
  unfold expand
  dsimp only
  rw [hx]
  refine .bind' (.eval hE) fun re => .pure' ?_
  simp only [setLast_move, id]
  split <;> rfl

theorem method_mirrors (hE : Recharted a env env') (p : Par) (s : St D N) : Mirrors a env env' (St.move a) (method p s) (method p (s.move a)) := by
  unfold method
  by_cases h : 0 < N
  · simp only [dif_pos h]
    have hc : centroid (s.move a).pop = a.pt (centroid s.pop) := centroid_move _
    have hx : away p.alpha (a.pt (centroid s.pop)) ((s.move a).pop ⟨N - 1, by omega⟩) = a.pt (away p.alpha (centroid s.pop) (s.pop ⟨N - 1, by omega⟩)) := away_move _ _ _
    rw [hc, hx]
    refine .bind' (.eval hE) fun rs => .step hE (by unfold reflects; numb) fun b => ?_
    exact .ite Iff.rfl (fun _ => .pure' (setLast_move s h _ _)) fun _ => .ite Iff.rfl (fun _ => expand_mirrors hE p s h _ _ rs) fun _ => contract_mirrors hE p s h _
  · simp only [dif_neg h]
    exact .throw

theorem C98_nm (B : Box D) (N : ℕ) (p : Par) : Carries a (alg B N p) (alg (B.move a) N p) (St.move a) where
  pop s := ofFn_move _
  fit s := rfl
  init env env' hE := .bind' (.defaultNumpyInit hE) fun r => .pure' rfl
  iter env env' hE s xb fxb := by
    refine .step hE .sortIdx fun si => .bind' (method_mirrors hE p _) fun s => .bind' .getBestRows fun b => .pure' rfl

end NM

/-! ### Genetic algorithm -/
namespace GA
variable [Arith] [ExactOps]

/-- Mutations that draw new coordinates uniformly from the search space. -/
def Mut.Fresh : Mut → Prop
  | .uros _ => False
  | _ => True

omit [ExactOps] in
theorem sel_mirrors (hE : Recharted a env env') (s : Sel) (pop : Fin N → Indiv D) (ic : Fin N) (xb : Vec D) :
    Mirrors a env env' a.pt (s.run pop ic xb) (s.run (fun i => (pop i).move a) ic (a.pt xb)) := by
  cases s with
  | tournament ts => exact .step hE .choiceFin fun c => .step hE .argminRec fun w => .pure' rfl
  | roulette =>
    exact .step hE .rand fun r => .pure' (apply_ite a.pt _ _ _).symm

omit [Arith] [ExactOps] in
theorem other_numb (fuel : ℕ) (ic : Fin N) : (other fuel ic : Prog (Vec D) _).Numb := by
  unfold other
  have : ∀ (fuel : ℕ) (io : Fin N), (otherLoop ic fuel io : Prog (Vec D) _).Numb := by
    intro fuel
    induction fuel with
    | zero => intro io; unfold otherLoop; split <;> trivial
    | succ n ih =>
      intro io
      unfold otherLoop
      split
      · exact .bind' .intFin ih
      · trivial
  exact this fuel ic

omit [ExactOps] in
/-- The result of a crossover is not used. -/
theorem cross_mirrors {β γ : Type} (hE : Recharted a env env') (c : Cross) (fuel : ℕ) (pop : Fin N → Indiv D) (ic : Fin N) {ψ : β → γ} {p : Prog (Vec D) β}
    {q : Prog (Vec D) γ} (h : Mirrors a env env' ψ p q) : Mirrors a env env' ψ (c.run fuel pop ic >>= fun _ => p) (c.run fuel (fun i => (pop i).move a) ic >>= fun _ => q) := by
  cases c <;> simp only [Cross.run, bind_assoc, pure_bind]
  · exact .step hE (other_numb fuel ic) fun _ => .step hE .choiceRep fun _ => h
  · exact .step hE (other_numb fuel ic) fun _ => .step hE .choiceRep fun _ => h
  · exact .step hE (other_numb fuel ic) fun _ => .step hE .intFin fun _ => .step hE .randVec fun _ => h
  · exact .step hE (other_numb fuel ic) fun _ => .step hE .randVec fun _ => h

theorem mutCoord_mirrors (hE : Recharted a env env') (B : Box D) (mr : Fl) (j d : Fin D) (old : Fl) :
    Mirrors a env env' (Fl.aff (a.s d) (a.c d)) (mutCoord B mr j d old) (mutCoord (B.move a) mr j d (old.aff (a.s d) (a.c d))) :=
  .step hE .rand fun r => .ite Iff.rfl (fun _ => .unif hE) fun _ => .pure' rfl

theorem mut_mirrors (hE : Recharted a env env') {m : Mut} (hm : m.Fresh) (B : Box D) (pop : Fin N → Indiv D) (ic : Fin N) :
    Mirrors a env env' a.pt (m.run B pop ic) (m.run (B.move a) (fun i => (pop i).move a) ic) := by
  cases m with
  | uniform mr => exact .step hE .intFin fun j => .tabMD (φ := fun d => Fl.aff (a.s d) (a.c d)) fun d => mutCoord_mirrors hE B mr j d _
  | creep mr => exact .step hE .intFin fun ic => .step hE .intFin fun j => .tabMD (φ := fun d => Fl.aff (a.s d) (a.c d)) fun d => mutCoord_mirrors hE B mr j d _
  | uros mr => exact hm.elim

theorem C98_ga (opt : OptType) (B : Box D) (N : ℕ) {p : Par} (hm : p.mutation.Fresh) (fuel : ℕ) :
    Carries a (alg opt B N p fuel) (alg opt (B.move a) N p fuel) (fun s i => (s i).move a) where
  pop s := ofFn_move _
  fit s := rfl
  init env env' hE := .defaultIndividualInit hE
  iter env env' hE s xb fxb := by
    refine .forFin (φ := fun r : (Fin N → Indiv D) × Vec D × Fl => (fun i => (r.1 i).move a, a.sol r.2)) (s := (s, xb, fxb)) fun i r => ?_
    refine .bind' (φ := fun r : Indiv D × Vec D × Fl => (r.1.move a, a.sol r.2)) ?_ fun r => .pure' (Prod.ext (ABC.update_indiv _ _ _) rfl)
    refine .bind' (sel_mirrors hE p.sel s i _) fun _ => cross_mirrors hE _ _ _ _ (.bind' (mut_mirrors hE hm B s i) fun x => .bind' (.evaluate hE rfl) fun ind => .pure' ?_)
    simp only [Indiv.move, Chart.sol, getBest1_move]
    split <;> rfl

end GA

/-! ### Algorithms with one solution -/

/-- A solution in the new variables. -/
def One.move {E : Type} (a : Chart D) (s : One D E) : One D E := ⟨a.pt s.x, s.f, s.ext⟩

section
variable [Arith] [ExactOps]

theorem Mirrors.sample (hE : Recharted a env env') {B : Box D} : Mirrors a env env' a.pt (NiaPy.sample B) (NiaPy.sample (B.move a)) :=
  .step hE .randVec fun u => .pure' (by unfold Box.move; chart a)

theorem Mirrors.initOne {E : Type} (hE : Recharted a env env') {B : Box D} {e : E} : Mirrors a env env' (One.move a) (NiaPy.initOne B e) (NiaPy.initOne (B.move a) e) :=
  .bind' (.sample hE) fun x => .bind' (.eval hE) fun v => .pure' rfl

end

namespace HC
variable [Arith] [ExactOps]

theorem climb_mirrors (hs : a.Shift) (hE : Recharted a env env') (delta : Fl) (x : Vec D) (n : ℕ) (b : Vec D × Fl) :
    Mirrors a env env' a.sol (climb delta x n b) (climb delta (a.pt x) n (a.sol b)) := by
  induction n generalizing b with
  | zero => exact .throw
  | succ n ih =>
    unfold climb
    refine .bind' (φ := a.sol) (.step hE .normVec fun u => .bind' (.repair hE (by shift hs)) fun y => .bind' (.eval hE) fun v => .pure' rfl) fun y => ?_
    exact .ite Iff.rfl (fun _ => ih y) fun _ => .pure' rfl

/-- Hill climbing, if only the origin is moved. -/
theorem C98_hc (hs : a.Shift) (B : Box D) (delta : Fl) (fuel : ℕ) : Carries a (alg B delta fuel) (alg (B.move a) delta fuel) (One.move a) where
  pop s := rfl
  fit s := rfl
  init env env' hE := .initOne hE
  iter env env' hE s xb fxb := by
    refine .bind' (.sample hE) fun x => .bind' (.eval hE) fun v => .bind' (climb_mirrors hs hE delta s.x fuel (x, v)) fun y => .pure' ?_
    simp only [Chart.sol, getBest1_move]
    rfl

end HC

namespace SA
variable [Arith] [ExactOps]

/-- Simulated annealing, if only the origin is moved. -/
theorem C98_sa (hs : a.Shift) (B : Box D) (p : Par) : Carries a (alg B p) (alg (B.move a) p) (One.move a) where
  pop s := rfl
  fit s := rfl
  init env env' hE := .initOne hE
  iter env env' hE s xb fxb := by
    refine .step hE .randVec fun u => .bind' (.repair hE (by unfold One.move; shift hs)) fun c => .bind' (.eval hE) fun v => .step hE .rand fun r => .step hE .look fun w => .pure' ?_
    by_cases h : accept s.ext (v - s.f) r = true
    · have h' : accept (One.move a s).ext (id v - (One.move a s).f) r = true := h
      rw [if_pos h, if_pos h']
      exact Prod.ext rfl (getBest1_move ..)
    · have h' : ¬ accept (One.move a s).ext (id v - (One.move a s).f) r = true := h
      rw [if_neg h, if_neg h']
      exact Prod.ext rfl (getBest1_move ..)

end SA

namespace RS
variable [Arith] [ExactOps]

omit [Arith] [ExactOps] in
theorem same_move (x y : Vec D) : same (a.pt x) (a.pt y) = same x y := by
  unfold same
  congr 1
  funext j
  have : ∀ u v : Fl, Fl.eqB (u.aff (a.s j) (a.c j)) (v.aff (a.s j) (a.c j)) = Fl.eqB u v := by
    intro u v
    have h2 : u.aff (a.s j) (a.c j) = .nan ↔ u = .nan := by cases u <;> simp
    simp only [Fl.eqB, Fl.aff_inj (a.pos j), ne_eq, h2]
  exact this _ _

theorem fresh_mirrors (hE : Recharted a env env') (B : Box D) (l : List (Vec D)) (n : ℕ) :
    Mirrors a env env' a.pt (fresh B l n) (fresh (B.move a) (l.map a.pt) n) := by
  induction n with
  | zero => exact .throw
  | succ n ih =>
    unfold fresh
    refine .bind' (.sample hE) fun x => .ite ?_ (fun _ => ih) fun _ => .pure' rfl
    simp only [List.any_map, Function.comp_def, same_move]

def St.remap (a : Chart D) (s : St D) : St D := ⟨a.pt s.x, s.f, s.ext.map a.pt⟩

/-- Random search. -/
theorem C98_rs (B : Box D) (fuel : ℕ) : Carries a (alg B fuel) (alg (B.move a) fuel) (St.remap a) where
  pop s := rfl
  fit s := rfl
  init env env' hE := by
    refine .step hE .look fun v => .bind' (φ := List.map a.pt) ?_ fun l => ?_
    · exact .forFin (φ := List.map a.pt) fun _ l => .bind' (fresh_mirrors hE B l fuel) fun x => .pure' (by simp)
    · rw [List.head?_map, List.getLast?_map]
      cases l.head? with
      | none => exact .throw
      | some x =>
        cases l.getLast? with
        | none => exact .throw
        | some z => exact .bind' (.eval hE) fun f => .pure' rfl
  iter env env' hE s xb fxb := by
    refine .step hE .look fun v => ?_
    have : (St.remap a s).ext[if v.maxIters.isSome then v.iters else v.evals]? = (s.ext[if v.maxIters.isSome then v.iters else v.evals]?).map a.pt := List.getElem?_map ..
    rw [this]
    cases s.ext[if v.maxIters.isSome then v.iters else v.evals]? with
    | none => exact .throw
    | some x =>
      refine .bind' (.eval hE) fun f => .pure' ?_
      simp only [getBest1_move]
      rfl

end RS

/-! ### Monkey king evolution -/
namespace MKE
variable [Arith] [ExactOps]

def Ind.move (a : Chart D) (e : Ind D) : Ind D := ⟨a.pt e.x, e.f, a.pt e.pb, e.pbf, e.king⟩

omit [ExactOps] in
theorem crown_mirrors (hE : Recharted a env env') (p : Par) (pop : Fin N → Ind D) :
    Mirrors a env env' (fun r i => (r i).move a) (crown p pop) (crown p fun i => (pop i).move a) :=
  .step hE .choiceFin fun idx => .pure' (funext fun i => by
    by_cases h : ∃ j, idx j = i
    · simp only [if_pos h]; rfl
    · simp only [if_neg h])

/-- The moves of the second version, and those of the first version if only the units change. -/
theorem moveOne_mirrors (hE : Recharted a env env') (p : Par) {v2 : Bool} (hv : v2 = true ∨ a.Units) (xb : Vec D) (pop : Fin N → Ind D) (e : Ind D) :
    Mirrors a env env' a.sol (moveOne p v2 xb pop e) (moveOne p v2 (a.pt xb) (fun i => (pop i).move a) (e.move a)) := by
  refine .ite Iff.rfl (fun _ => .ite Iff.rfl (fun _ => ?_) fun h => ?_) fun _ => ?_
  · refine .forFin (φ := a.sol) (s := (e.x, e.f)) fun _ b => ?_
    refine .step hE .choiceFin fun r => .bind' (.repair hE ?_) fun x => .bind' (.eval hE) fun v => .pure' (betterLt_move _ _ _ _)
    unfold Ind.move; chart a
  · have hu : a.Units := hv.resolve_left h
    refine .step hE (by numb) fun r => .bind' (.repairRows hE fun i => ?_) fun x => .bind' (.evalRows hE) fun af => .step hE .argminIdx fun ib => .pure' rfl
    funext j
    simp only [Ind.move, Chart.pt, hu j, Fl.aff_mul (a.pos j), Fl.aff_add]
  · refine .step hE .randVec fun r => .bind' (.repair hE ?_) fun y => .bind' (.eval hE) fun v => .pure' rfl
    unfold Ind.move; chart a

omit [Arith] [ExactOps] in
theorem updateBest_move (e : Ind D) : (e.move a).updateBest = e.updateBest.move a := by
  unfold Ind.updateBest
  by_cases h : e.f < e.pbf
  · rw [if_pos h, if_pos (show (e.move a).f < (e.move a).pbf from h)]; rfl
  · rw [if_neg h, if_neg (show ¬ (e.move a).f < (e.move a).pbf from h)]

/-- The second monkey king evolution algorithm; the first one, if only the units change. -/
theorem C98_mke (opt : OptType) (B : Box D) (N : ℕ) (p : Par) {v2 : Bool} (hv : v2 = true ∨ a.Units) :
    Carries a (alg opt B N p v2) (alg opt (B.move a) N p v2) fun s i => (s i).move a where
  pop s := ofFn_move _
  fit s := rfl
  init env env' hE := .bind' (.defaultIndividualInit hE) fun r => crown_mirrors hE p _
  iter env env' hE s xb fxb := by
    refine .bind' (.forFin (φ := fun (s : Fin N → Ind D) i => (s i).move a) (s := s) fun i pop => ?_) fun pop => .bind' (crown_mirrors hE p pop) fun pop =>
      .bind' .getBestRows fun b => .pure' rfl
    refine .bind' (moveOne_mirrors hE p hv xb pop (pop i)) fun r => .pure' (funext fun j => ?_)
    by_cases h : j = i
    · subst h
      simp only [Function.update_self]
      exact updateBest_move ⟨r.1, r.2, (pop j).pb, (pop j).pbf, false⟩
    · simp only [Function.update_of_ne h]

end MKE

/-! ### Firefly algorithm -/
namespace FA
variable [Arith] [ExactOps]

def St.move (a : Chart D) (s : St D N) : St D N := ⟨fun i => a.pt (s.pop i), s.fit, s.alpha⟩

/-- If only the origin is moved. -/
theorem C98_fa (hs : a.Shift) (B : Box D) (N : ℕ) (p : Par) : Carries a (alg B N p) (alg (B.move a) N p) (St.move a) where
  pop s := ofFn_move _
  fit s := rfl
  init env env' hE := .bind' (.defaultNumpyInit hE) fun r => .pure' rfl
  iter env env' hE s xb fxb := by
    refine .bind' (.forFin (φ := fun r : St D N × Vec D × Fl => (r.1.move a, a.sol r.2)) (s := (s, xb, fxb)) fun i r => .forFin fun j r => ?_) fun r => .pure' rfl
    obtain ⟨s, xb, fxb⟩ := r
    refine .ite Iff.rfl (fun _ => ?_) fun _ => .pure' rfl
    refine .bind' (φ := a.pt) (.step hE .randVec fun u => .repair hE ?_) fun y => .bind' (.eval hE) fun v => ?_
    · have : euclid (a.pt (s.pop i)) (a.pt (s.pop j)) = euclid (s.pop i) (s.pop j) := by
        unfold euclid
        congr 1
        funext d
        simp only [Chart.pt, hs d, Fl.shift_sub]
      simp only [St.move, this, Box.move]
      shift hs
    · simp only [St.move, update_move]
      exact .bind' .getBestRows fun b => .pure' rfl

end FA

/-! ### Harmony search -/
namespace HS
variable [Arith] [ExactOps]

def St.move (a : Chart D) (s : St D N) : St D N := ⟨fun i => a.pt (s.pop i), s.fit⟩

theorem iter_mirrors (hs : a.Shift) (hE : Recharted a env env') (B : Box D) (p : Par) (s : St D N) (xb : Vec D) (fxb : Fl) :
    Mirrors a env env' (fun r => (St.move a r.1, a.sol r.2)) (iter B p s xb fxb) (iter (B.move a) p (s.move a) (a.pt xb) fxb) := by
  refine .bind' (φ := a.pt) (.tabMD (φ := fun d => Fl.aff (a.s d) (a.c d)) fun d => ?_) fun h => .bind' (.repair hE) fun h => .bind' (.eval hE) fun v =>
    .step hE .argmaxIdx fun iw => .pure' ?_
  · refine .step hE .rand fun r => .step hE .intFin fun j => .ite Iff.rfl (fun _ => .pure' rfl) fun _ => .ite Iff.rfl (fun _ => .step hE ?_ fun b => .pure' ?_) fun _ => .unif hE
    · cases p.width <;> unfold bw <;> numb
    · change Fl.aff _ _ _ + _ = _
      rw [hs d, Fl.shift_add]
  · by_cases hv : v ≤ s.fit iw
    · rw [if_pos hv, if_pos (show id v ≤ (St.move a s).fit iw from hv)]
      exact Prod.ext (by simp only [St.move, update_move]; rfl) (getBest1_move ..)
    · rw [if_neg hv, if_neg (show ¬ id v ≤ (St.move a s).fit iw from hv)]
      exact Prod.ext rfl (getBest1_move ..)

/-- If only the origin is moved. -/
theorem C98_hs (hs : a.Shift) (B : Box D) (N : ℕ) (p : Par) : Carries a (alg B N p) (alg (B.move a) N p) (St.move a) where
  pop s := ofFn_move _
  fit s := rfl
  init env env' hE := .bind' (.defaultNumpyInit hE) fun r => .pure' rfl
  iter env env' hE s xb fxb := iter_mirrors hs hE B p s xb fxb

end HS

/-! ### Bat algorithm -/
namespace BA
variable [Arith] [ExactOps]

def St.move (a : Chart D) (s : St D N) : St D N := ⟨fun i => a.pt (s.pop i), s.fit, s.vel, s.loud⟩

/-- If only the origin is moved. -/
theorem C98_ba (hs : a.Shift) (B : Box D) (N : ℕ) (p : Par) : Carries a (alg B N p) (alg (B.move a) N p) (St.move a) where
  pop s := ofFn_move _
  fit s := rfl
  init env env' hE := .bind' (.defaultNumpyInit hE) fun r => .pure' rfl
  iter env env' hE s xb fxb := by
    refine .step hE .look fun v => .bind' (.forFin (φ := fun r : St D N × Vec D × Fl => (r.1.move a, a.sol r.2)) (s := (s, xb, fxb)) fun i r => ?_) fun r => .pure' rfl
    obtain ⟨s, xb, fxb⟩ := r
    refine .step hE .rand fun r => ?_
    have hvel : ∀ f : Fl, (fun j => s.vel i j + (a.pt (s.pop i) j - a.pt xb j) * f) = fun j => s.vel i j + (s.pop i j - xb j) * f := by
      intro f; shift hs
    simp only [St.move, Chart.sol, hvel]
    refine .bind' (φ := a.pt) (.step hE .rand fun u => .ite Iff.rfl (fun _ => .step hE .normVec fun z => .repair hE (by shift hs)) fun _ => .repair hE (by shift hs)) fun y => ?_
    refine .bind' (.eval hE) fun v => .bind' (φ := id) (.ite Iff.rfl (fun _ => .numb hE (by numb)) fun _ => .pure' rfl) fun accept => .pure' ?_
    rw [getBest1_move]
    cases accept
    · rfl
    · simp only [id, if_true, update_move]; rfl

end BA
end NiaPy
