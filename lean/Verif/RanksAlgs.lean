import Verif.Ranks
import Verif.Algo.DE
import Verif.Algo.PSO
import Verif.Algo.GWO
import Verif.Algo.HC
import Verif.Algo.RS
import Verif.Algo.MFO
import Verif.Algo.SCA
import Verif.Algo.CS
import Verif.Algo.FPA
import Verif.Algo.FA
import Verif.Algo.MKE
import Verif.Algo.HS
import Verif.Algo.HHO
import Verif.Algo.BA
import Verif.Algo.BAT
import Verif.Algo.BEA
import Verif.Algo.JDE
import Verif.Algo.GA
import Verif.Algo.ES
import Verif.Algo.PSOVariants
import Verif.Algo.NM
import Verif.Algo.MBO
import Verif.Algo.MSHOA

/-!
# C96: algorithms that depend on the order of fitness values only
-/

namespace NiaPy
variable {X : Type} {D N : ℕ} {G : Fl → Fl}

theorem update_scale {n : ℕ} (f : Fin n → Fl) (i : Fin n) (v : Fl) :
    (fun j => G (Function.update f i v j)) = Function.update (fun j => G (f j)) i (G v) := by
  funext j
  by_cases h : j = i
  · subst h; simp
  · simp [Function.update_of_ne h]

theorem ofFn_scale {n : ℕ} (f : Fin n → Fl) : (List.ofFn fun i => G (f i)) = (List.ofFn f).map G := by rw [List.map_ofFn]; rfl

theorem Follows.getBestRows {env env' : Env X} (hG : Gauge G) {n : ℕ} {pop : Fin n → X} {fit : Fin n → Fl} {xb : X} {fxb : Fl} :
    Follows G env env' (scaleF G) (Prog.getBest (List.ofFn pop) (List.ofFn fit) xb fxb)
      (Prog.getBest (List.ofFn pop) (List.ofFn fun i => G (fit i)) xb (G fxb)) := by rw [ofFn_scale]; exact .getBest hG

theorem keepBetter_scale (hG : Gauge G) {n : ℕ} (pop new : Fin n → X) (fit newF : Fin n → Fl) :
    keepBetter pop new (fun i => G (fit i)) (fun i => G (newF i)) = ((keepBetter pop new fit newF).1, fun i => G ((keepBetter pop new fit newF).2 i)) := by
  unfold keepBetter
  simp only [hG.lt, Prod.mk.injEq, true_and]
  funext i
  split <;> rfl

section
variable [Arith]
theorem Prog.Blind.sample {B : Box D} : (NiaPy.sample B).Blind := by unfold NiaPy.sample; blind
end
macro_rules | `(tactic| blind_step) => `(tactic| exact Prog.Blind.sample)

/-! ### Differential evolution -/
namespace DE
variable {E : Type} [Arith]

/-- An individual with transformed fitness. -/
def Ind.rescale (G : Fl → Fl) (e : Ind D E) : Ind D E := ⟨e.x, G e.f, e.ext⟩

/-- A strategy evaluates nothing. -/
def BlindStrategy (strat : Strategy D) : Prop := ∀ {n : ℕ} (pop : Fin n → Vec D) ic f cr xb, (strat pop ic f cr xb).Blind

theorem BlindStrategy.std (k : ℕ) (mutant : {n : ℕ} → (Fin n → Vec D) → Fin n → (Fin k → Fin n) → Fl → Vec D → Vec D) : BlindStrategy (strategy k mutant) := by
  intro n pop ic f cr xb
  unfold strategy parents binomial
  blind

theorem strat_cast (strat : Strategy D) {n m : ℕ} (h : n = m) {pop : Fin n → Vec D} {pop' : Fin m → Vec D} (hp : ∀ i, pop' (i.cast h) = pop i) (i : Fin n)
    (f cr : Fl) (xb : Vec D) : strat pop' (i.cast h) f cr xb = strat pop i f cr xb := by
  subst h
  have : pop' = pop := funext hp
  rw [this]
  rfl

theorem tabM_cast {α β : Type} {X : Type} {env env' : Env X} {φ : α → β} {n m : ℕ} (h : n = m) {f : Fin n → Prog X α} {k : Fin m → Prog X β}
    (hf : ∀ i, Follows G env env' φ (f i) (k (i.cast h))) : Follows G env env' (fun r i => φ (r (i.cast h.symm))) (tabM n f) (tabM m k) := by
  subst h
  exact .tabM hf

theorem newInd_follows {env env' : Env (Vec D)} (hG : Gauge G) (hE : Rescaled G env env') {opt : OptType} {ext : E} {x : Vec D} :
    Follows G env env' (Ind.rescale G) (newInd opt ext x) (newInd opt ext x) := .bind' (.evaluate hG hE rfl) fun i => .pure' rfl

theorem randInd_follows {env env' : Env (Vec D)} (hG : Gauge G) (hE : Rescaled G env env') {opt : OptType} {B : Box D} {ext : E} :
    Follows G env env' (Ind.rescale G) (randInd opt B ext) (randInd opt B ext) := .bind' (.indivRandom hG hE) fun i => .pure' rfl

/-- What producing offspring from transformed individuals yields. -/
def offspring (G : Fl → Fl) (l : List (Ind D E)) (new : Fin l.length → Ind D E) (i : Fin (l.map (Ind.rescale G)).length) : Ind D E :=
  (new (i.cast (List.length_map _))).rescale G

/-- Producing offspring depends on the order only. -/
def OrdinalEvolve (ev : Evolve D E) : Prop := ∀ G env env', Gauge G → Rescaled G env env' → ∀ l xb,
  Follows G env env' (offspring G l) (ev l xb) (ev (l.map (Ind.rescale G)) xb)

theorem pts_rescale (l : List (Ind D E)) (i : Fin l.length) : pts (l.map (Ind.rescale G)) (i.cast (List.length_map _).symm) = pts l i := by
  simp [pts, Ind.rescale]

theorem OrdinalEvolve.evolve {opt : OptType} {ext : E} {strat : Strategy D} (hs : BlindStrategy strat) (f cr : Fl) : OrdinalEvolve (evolve opt ext strat f cr) := by
  intro G env env' hG hE l xb
  refine tabM_cast (List.length_map _).symm fun i => ?_
  beta_reduce
  rw [strat_cast strat _ (pts_rescale l)]
  exact .step hG hE (hs _ _ _ _ _) fun x => newInd_follows hG hE

theorem OrdinalEvolve.evolveMulti {opt : OptType} {ext : E} {strats : List (Strategy D)} (hs : ∀ st ∈ strats, BlindStrategy st) (f cr : Fl) :
    OrdinalEvolve (evolveMulti opt ext strats f cr) := by
  intro G env env' hG hE l xb
  refine tabM_cast (List.length_map _).symm fun i => ?_
  refine .bind' (φ := List.map (Ind.rescale G)) ?_ fun c => .argminRec hG.keeps (val := fun e : Ind D E => e.f) (val' := fun e : Ind D E => e.f) (φ := Ind.rescale G) fun _ => rfl
  induction strats with
  | nil => exact .pure' rfl
  | cons st strats ih =>
    refine .bind ?_ fun a => .bind (ih fun s h => hs s (List.mem_cons_of_mem _ h)) fun r => .pure' rfl
    beta_reduce
    rw [strat_cast st _ (pts_rescale l)]
    exact .step hG hE (hs st List.mem_cons_self _ _ _ _ _) fun x => newInd_follows hG hE

theorem survivors_rescale (hG : Gauge G) (l : List (Ind D E)) (new : Fin l.length → Ind D E) :
    survivors (l.map (Ind.rescale G)) (offspring G l new) = (survivors l new).map (Ind.rescale G) := by
  refine List.ext_getElem (by simp [survivors]) fun i h1 h2 => ?_
  simp only [survivors, offspring, List.getElem_ofFn, List.getElem_map, List.get_eq_getElem, Fin.val_cast, Ind.rescale, hG.lt, Fin.cast_mk]
  split <;> rfl

theorem best_follows {env env' : Env (Vec D)} (hG : Gauge G) {l : List (Ind D E)} {xb : Vec D} {fxb : Fl} :
    Follows G env env' (scaleF G) (best l xb fxb) (best (l.map (Ind.rescale G)) xb (G fxb)) := by
  unfold best
  rw [show (l.map (Ind.rescale G)).map (·.x) = l.map (·.x) by simp [List.map_map, Function.comp_def, Ind.rescale],
    show (l.map (Ind.rescale G)).map (·.f) = (l.map (·.f)).map G by simp [List.map_map, Function.comp_def, Ind.rescale]]
  exact .getBest hG

/-- The state after an iteration, transformed. -/
def resc (G : Fl → Fl) (r : List (Ind D E) × Vec D × Fl) : List (Ind D E) × Vec D × Fl := (r.1.map (Ind.rescale G), r.2.1, G r.2.2)

theorem select_follows {env env' : Env (Vec D)} (hG : Gauge G) (l : List (Ind D E)) (new : Fin l.length → Ind D E) (xb : Vec D) (fxb : Fl) :
    Follows G env env' (resc G) (select l new xb fxb) (select (l.map (Ind.rescale G)) (offspring G l new) xb (G fxb)) := by
  unfold select
  rw [survivors_rescale hG]
  exact .bind' (best_follows hG) fun b => .pure' rfl

theorem ordinal {opt : OptType} {B : Box D} {N : ℕ} {ext : E} {ev : Evolve D E} (hev : OrdinalEvolve ev) {post : List (Ind D E) → Prog (Vec D) (List (Ind D E))}
    (hpost : ∀ G env env', Gauge G → Rescaled G env env' → ∀ l, Follows G env env' (List.map (Ind.rescale G)) (post l) (post (l.map (Ind.rescale G)))) :
    Ordinal (mk opt B N ext (iter ev select post)) fun G l => l.map (Ind.rescale G) where
  pop G l := by
    have key : ∀ l : List (Ind D E), (l.map (Ind.rescale G)).map (·.x) = l.map (·.x) := fun l => by simp [List.map_map, Function.comp_def, Ind.rescale]
    exact key l
  fit G l := by
    have key : ∀ l : List (Ind D E), (l.map (Ind.rescale G)).map (·.f) = (l.map (·.f)).map G := fun l => by simp [List.map_map, Function.comp_def, Ind.rescale]
    exact key l
  init G env env' hG hE := by
    refine .bind' (.tabM fun i => randInd_follows hG hE) fun p => .pure' ?_
    change _ = List.map _ (List.ofFn p)
    rw [List.map_ofFn]
    rfl
  iter G env env' hG hE l xb fxb := by
    refine .bind' (hev G env env' hG hE l xb) fun new => .bind' (select_follows hG l new xb fxb) fun r => ?_
    exact .bind' (hpost G env env' hG hE _) fun l => .bind' (best_follows hG) fun b => .pure' rfl

theorem halve_rescale (hG : Gauge G) (l : List (Ind D E)) : halve (l.map (Ind.rescale G)) = (halve l).map (Ind.rescale G) := by
  refine List.ext_getElem (by simp [halve]) fun i h1 h2 => ?_
  simp only [halve, List.getElem_ofFn, List.getElem_map, List.get_eq_getElem, Ind.rescale, hG.lt, List.length_map, Fin.val_cast]
  split <;> rfl

theorem reduce_follows {env env' : Env (Vec D)} (hG : Gauge G) (hE : Rescaled G env env') (pMax rp : ℕ) (l : List (Ind D E)) :
    Follows G env env' (List.map (Ind.rescale G)) (reduce pMax rp l) (reduce pMax rp (l.map (Ind.rescale G))) := by
  unfold reduce
  rw [halve_rescale hG, List.length_map]
  exact .step hG hE .look fun v => .ite Iff.rfl (fun _ => .throw) fun _ => .ite Iff.rfl (fun _ => .pure' rfl) fun _ => .pure' rfl

/-- Differential evolution. -/
theorem C96_de (opt : OptType) (B : Box D) (N : ℕ) {strat : Strategy D} (hs : BlindStrategy strat) (f cr : Fl) :
    Ordinal (alg opt B N strat f cr) fun G l => l.map (Ind.rescale G) := ordinal (.evolve hs f cr) fun _ _ _ _ _ _ => .pure' rfl

/-- Differential evolution with several strategies. -/
theorem C96_multi (opt : OptType) (B : Box D) (N : ℕ) {strats : List (Strategy D)} (hs : ∀ st ∈ strats, BlindStrategy st) (f cr : Fl) :
    Ordinal (algMulti opt B N strats f cr) fun G l => l.map (Ind.rescale G) := ordinal (.evolveMulti hs f cr) fun _ _ _ _ _ _ => .pure' rfl

/-- Differential evolution with dynamic population size. -/
theorem C96_dyn (opt : OptType) (B : Box D) (N : ℕ) {strat : Strategy D} (hs : BlindStrategy strat) (f cr : Fl) (pMax rp : ℕ) :
    Ordinal (algDyn opt B N strat f cr pMax rp) fun G l => l.map (Ind.rescale G) := ordinal (.evolve hs f cr) fun _ _ _ hG hE l => reduce_follows hG hE pMax rp l

theorem C96_dyn_multi (opt : OptType) (B : Box D) (N : ℕ) {strats : List (Strategy D)} (hs : ∀ st ∈ strats, BlindStrategy st) (f cr : Fl) (pMax rp : ℕ) :
    Ordinal (algDynMulti opt B N strats f cr pMax rp) fun G l => l.map (Ind.rescale G) :=
  ordinal (.evolveMulti hs f cr) fun _ _ _ hG hE l => reduce_follows hG hE pMax rp l

end DE

/-! ### Particle swarm optimization -/
namespace PSO
variable [Arith]

def St.rescale (G : Fl → Fl) (s : St D N) : St D N := ⟨s.pop, fun i => G (s.fit i), s.pb, fun i => G (s.pbf i), s.v⟩

/-- The velocity rule evaluates nothing. -/
def BlindVel (f : Vel D) : Prop := ∀ v x pb gb, (f v x pb gb).Blind

theorem BlindVel.vel (p : Par D) (w lo hi : Vec D) : BlindVel (vel p w lo hi) := by intro v x pb gb; unfold PSO.vel; blind
theorem BlindVel.velU (p : Par D) (w lo hi : Vec D) : BlindVel (velU p w lo hi) := by intro v x pb gb; unfold PSO.velU; blind

def resc (G : Fl → Fl) (r : St D N × Vec D × Fl) : St D N × Vec D × Fl := (r.1.rescale G, r.2.1, G r.2.2)

theorem record_rescale (hG : Gauge G) (s : St D N) (i : Fin N) (v x : Vec D) (f : Fl) : (s.rescale G).record i v x (G f) = (s.record i v x f).rescale G := by
  simp only [St.record, St.rescale, hG.lt, update_scale, St.mk.injEq, true_and, and_true]
  split <;> rfl

theorem global_rescale (hG : Gauge G) (nested : Bool) (pbf : Fl) (x : Vec D) (f : Fl) (xb : Vec D) (fxb : Fl) :
    global nested (G pbf) x (G f) xb (G fxb) = scaleF G (global nested pbf x f xb fxb) := by
  unfold global
  rw [betterLt_map hG]
  simp only [hG.lt]
  split <;> rfl

theorem particle_follows {env env' : Env (Vec D)} (hG : Gauge G) (hE : Rescaled G env env') {vel : Vel D} (hv : BlindVel vel) (nested : Bool) (i : Fin N)
    (s : St D N × Vec D × Fl) : Follows G env env' (resc G) (particle vel nested i s) (particle vel nested i (resc G s)) := by
  refine .step hG hE (hv _ _ _ _) fun v => .step hG hE .repair fun x => .bind' (.eval hG hE) fun f => .pure' ?_
  refine Prod.ext (record_rescale hG s.1 i v x f) (global_rescale hG nested _ x f _ _)

theorem iter_follows {env env' : Env (Vec D)} (hG : Gauge G) (hE : Rescaled G env env') {B : Box D} {vel : Vel D} (hv : BlindVel vel) (c : Bool) (m : ℕ)
    (s : St D N) (xb : Vec D) (fxb : Fl) : Follows G env env' (resc G) (iter B vel c m s xb fxb) (iter B vel c m (s.rescale G) xb (G fxb)) := by
  refine .bind' (.forFin (φ := resc G) (s := (s, xb, fxb)) fun i s => particle_follows hG hE hv false i s) fun r => ?_
  refine .bind' (φ := scaleF G) ?_ fun b => ?_
  · refine .ite Iff.rfl (fun _ => .bind' (.eval hG hE) fun fc => .pure' ?_) fun _ => .pure' rfl
    simp only [resc, hG.le]
    split <;> rfl
  · refine .bind' (.forFin (φ := scaleF G) (s := (b.1, b.2)) fun i b => ?_) fun b => .pure' rfl
    refine .step hG hE .unifVec fun u => .step hG hE .repair fun x => .bind' (.eval hG hE) fun f => .pure' ?_
    simp only [scaleF, hG.le]
    split <;> rfl

/-- Particle swarm optimization, with all options that were modelled. -/
theorem C96_pso (B : Box D) (N : ℕ) (p : Par D) (u c : Bool) (m : ℕ) : Ordinal (alg B N p u c m) St.rescale where
  pop G s := rfl
  fit G s := ofFn_scale _
  init G env env' hG hE := .bind' (.defaultNumpyInit hG hE) fun r => .pure' rfl
  iter G env env' hG hE s xb fxb := by
    refine iter_follows hG hE ?_ c m s xb fxb
    cases u
    · exact BlindVel.vel _ _ _ _
    · exact BlindVel.velU _ _ _ _

end PSO

/-! ### Grey wolf optimizer -/
namespace GWO
variable [Arith]

def Leaders.rescale (G : Fl → Fl) (l : Leaders D) : Leaders D := ⟨l.alpha, G l.alphaF, l.beta, G l.betaF, l.delta, G l.deltaF⟩
def St.rescale (G : Fl → Fl) (s : St D N) : St D N := ⟨s.pop, fun i => G (s.fit i), s.lead.rescale G⟩

theorem update_rescale (hG : Gauge G) (l : Leaders D) (e : Vec D × Fl) : (l.rescale G).update (scaleF G e) = (l.update e).rescale G := by
  unfold Leaders.update
  simp only [Leaders.rescale, scaleF, hG.lt]
  split
  · rfl
  · split
    · rfl
    · split <;> rfl

theorem scan_rescale (hG : Gauge G) (l : Leaders D) (pop : Fin N → Vec D) (fit : Fin N → Fl) :
    (l.rescale G).scan pop (fun i => G (fit i)) = (l.scan pop fit).rescale G := by
  unfold Leaders.scan
  rw [show (List.ofFn fun i => (pop i, G (fit i))) = (List.ofFn fun i => (pop i, fit i)).map (scaleF G) by rw [List.map_ofFn]; rfl]
  generalize (List.ofFn fun i => (pop i, fit i)) = es
  induction es generalizing l with
  | nil => rfl
  | cons e es ih => simp only [List.map_cons, List.foldl_cons, update_rescale hG, ih]

theorem C96_gwo (B : Box D) (N : ℕ) : Ordinal (alg B N) St.rescale where
  pop G s := rfl
  fit G s := ofFn_scale _
  init G env env' hG hE := by
    refine .bind' (.defaultNumpyInit hG hE) fun r => .bind' (.sortIdx hE) fun si => ?_
    dsimp only
    split
    · exact .pure' rfl
    · exact .throw
  iter G env env' hG hE s xb fxb := by
    refine .step hG hE .look fun v => .bind' (.moveEval hG hE fun i => ?_) fun r => .pure' ?_
    · unfold move approach
      blind
    · have := scan_rescale hG s.lead (fun i => (r i).1) fun i => (r i).2
      simp only [St.rescale, scaleF, this]
      rw [show ∀ l : Leaders D, (l.rescale G).alphaF = G l.alphaF from fun _ => rfl, getBest1_map hG]
      rfl

end GWO

/-! ### Hill climbing and random search -/

/-- A solution with transformed fitness. -/
def One.rescale {E : Type} (G : Fl → Fl) (s : One D E) : One D E := ⟨s.x, G s.f, s.ext⟩

theorem Follows.initOne [Arith] {E : Type} {env env' : Env (Vec D)} (hG : Gauge G) (hE : Rescaled G env env') {B : Box D} {e : E} :
    Follows G env env' (One.rescale G) (NiaPy.initOne B e) (NiaPy.initOne B e) := .step hG hE .sample fun x => .bind' (.eval hG hE) fun v => .pure' rfl

namespace HC
variable [Arith]

theorem climb_follows {env env' : Env (Vec D)} (hG : Gauge G) (hE : Rescaled G env env') (delta : Fl) (x : Vec D) (n : ℕ) (b : Vec D × Fl) :
    Follows G env env' (scaleF G) (climb delta x n b) (climb delta x n (scaleF G b)) := by
  induction n generalizing b with
  | zero => exact .throw
  | succ n ih =>
    unfold climb
    refine .bind' (φ := scaleF G) (.step hG hE .normVec fun u => .step hG hE .repair fun y => .bind' (.eval hG hE) fun v => .pure' rfl) fun y => ?_
    exact .ite (hG.lt _ _) (fun _ => ih y) fun _ => .pure' rfl

theorem C96_hc (B : Box D) (delta : Fl) (fuel : ℕ) : Ordinal (alg B delta fuel) One.rescale where
  pop G s := rfl
  fit G s := rfl
  init G env env' hG hE := .initOne hG hE
  iter G env env' hG hE s xb fxb := by
    refine .step hG hE .sample fun x => .bind' (.eval hG hE) fun v => .bind' (climb_follows hG hE delta s.x fuel (x, v)) fun y => .pure' ?_
    rw [show (scaleF G y).2 = G y.2 from rfl, getBest1_map hG]
    rfl

end HC

namespace RS
variable [Arith]

theorem fresh_blind (B : Box D) (l : List (Vec D)) (n : ℕ) : (fresh B l n).Blind := by
  induction n with
  | zero => trivial
  | succ n ih => unfold fresh; blind

theorem C96_rs (B : Box D) (fuel : ℕ) : Ordinal (alg B fuel) One.rescale where
  pop G s := rfl
  fit G s := rfl
  init G env env' hG hE := by
    refine .step hG hE .look fun v => .step hG hE ?_ fun l => ?_
    · exact .forFin fun _ l => .bind' (fresh_blind B l fuel) fun _ => .pure'
    · split
      · exact .bind' (.eval hG hE) fun f => .pure' rfl
      · exact .throw
  iter G env env' hG hE s xb fxb := by
    refine .step hG hE .look fun v => ?_
    rw [show (One.rescale G s).ext = s.ext from rfl]
    split
    · exact .throw
    · refine .bind' (.eval hG hE) fun f => .pure' ?_
      rw [getBest1_map hG]
      rfl

end RS

namespace MFO
variable [Arith]

def St.rescale (G : Fl → Fl) (s : St D N) : St D N := ⟨s.pop, fun i => G (s.fit i)⟩

theorem C96_mfo (B : Box D) (N : ℕ) : Ordinal (alg B N) St.rescale where
  pop G s := rfl
  fit G s := ofFn_scale _
  init G env env' hG hE := .bind' (.defaultNumpyInit hG hE) fun r => .pure' rfl
  iter G env env' hG hE s xb fxb := by
    refine .bind' (.sortIdx hE) fun si => .step hG hE .look fun v => .step hG hE .ofExcept fun fn => .step hG hE ?_ fun pop => ?_
    · unfold move; blind
    · exact .step hG hE .repairRows fun pop => .bind' (.evalRows hG hE) fun fit => .bind' (.getBestRows hG) fun b => .pure' rfl

end MFO

namespace SCA
variable [Arith]

def St.rescale (G : Fl → Fl) (s : St D N) : St D N := ⟨s.pop, fun i => G (s.fit i)⟩

theorem C96_sca (B : Box D) (N : ℕ) (p : Par) : Ordinal (alg B N p) St.rescale where
  pop G s := rfl
  fit G s := ofFn_scale _
  init G env env' hG hE := .bind' (.defaultNumpyInit hG hE) fun r => .pure' rfl
  iter G env env' hG hE s xb fxb :=
    .step hG hE .look fun v => .step hG hE .unif fun r2 => .step hG hE .unif fun r3 => .step hG hE .rand fun r4 =>
    .step hG hE .repairRows fun pop => .bind' (.evalRows hG hE) fun fit => .bind' (.getBestRows hG) fun b => .pure' rfl

end SCA

namespace CS
variable [Arith]

def St.rescale (G : Fl → Fl) (s : St D N) : St D N := ⟨s.pop, fun i => G (s.fit i)⟩

theorem C96_cs (B : Box D) (N : ℕ) (pa : Fl) : Ordinal (alg B N pa) St.rescale where
  pop G s := rfl
  fit G s := ofFn_scale _
  init G env env' hG hE := .bind' (.defaultNumpyInit hG hE) fun r => .pure' rfl
  iter G env env' hG hE s xb fxb := by
    refine .step hG hE (by unfold getCuckoos levyRows; blind) fun new => .bind' (.evalRows hG hE) fun newF => ?_
    simp only [St.rescale, keepBetter_scale hG]
    refine .bind' (.getBestRows hG) fun b => .step hG hE (by unfold emptyNests; blind) fun new => .bind' (.evalRows hG hE) fun newF => ?_
    simp only [keepBetter_scale hG]
    exact .bind' (.getBestRows hG) fun b => .pure' rfl

end CS

namespace FPA
variable [Arith]

def St.rescale (G : Fl → Fl) (s : St D N) : St D N := ⟨s.pop, fun i => G (s.fit i), s.sols⟩

theorem C96_fpa (B : Box D) (N : ℕ) (p : Fl) : Ordinal (alg B N p) St.rescale where
  pop G s := rfl
  fit G s := ofFn_scale _
  init G env env' hG hE := .bind' (.defaultNumpyInit hG hE) fun r => .pure' rfl
  iter G env env' hG hE s xb fxb := by
    refine .forFin (φ := fun r : St D N × Vec D × Fl => (r.1.rescale G, r.2.1, G r.2.2)) (s := (s, xb, fxb)) fun i a => ?_
    obtain ⟨s, xb, fxb⟩ := a
    refine .step hG hE (by unfold candidate; blind) fun y => .bind' (.eval hG hE) fun v => .pure' ?_
    rw [getBest1_map hG]
    simp only [St.rescale, hG.le]
    split
    · simp only [update_scale]; rfl
    · rfl

end FPA

namespace FA
variable [Arith]

def St.rescale (G : Fl → Fl) (s : St D N) : St D N := ⟨s.pop, fun i => G (s.fit i), s.alpha⟩

theorem C96_fa (B : Box D) (N : ℕ) (p : Par) : Ordinal (alg B N p) St.rescale where
  pop G s := rfl
  fit G s := ofFn_scale _
  init G env env' hG hE := .bind' (.defaultNumpyInit hG hE) fun r => .pure' rfl
  iter G env env' hG hE s xb fxb := by
    refine .bind' (.forFin (φ := fun r : St D N × Vec D × Fl => (r.1.rescale G, r.2.1, G r.2.2)) (s := (s, xb, fxb)) fun i a => .forFin fun j a => ?_) fun r => .pure' rfl
    obtain ⟨s, xb, fxb⟩ := a
    refine .ite (hG.le _ _) (fun _ => ?_) fun _ => .pure' rfl
    refine .step hG hE (by unfold move; blind) fun y => .bind' (.eval hG hE) fun v => ?_
    simp only [St.rescale, ← update_scale]
    exact .bind' (.getBestRows hG) fun b => .pure' rfl

end FA

namespace MKE
variable [Arith]

def Ind.rescale (G : Fl → Fl) (e : Ind D) : Ind D := ⟨e.x, G e.f, e.pb, G e.pbf, e.king⟩

theorem crown_follows {env env' : Env (Vec D)} (hG : Gauge G) (hE : Rescaled G env env') (p : Par) (pop : Fin N → Ind D) :
    Follows G env env' (fun r i => (r i).rescale G) (crown p pop) (crown p fun i => (pop i).rescale G) :=
  .step hG hE .choiceFin fun idx => .pure' (funext fun i => by
    by_cases h : ∃ j, idx j = i
    · simp only [if_pos h]; rfl
    · simp only [if_neg h])

theorem moveOne_follows {env env' : Env (Vec D)} (hG : Gauge G) (hE : Rescaled G env env') (p : Par) (v2 : Bool) (xb : Vec D) (pop : Fin N → Ind D) (e : Ind D) :
    Follows G env env' (scaleF G) (moveOne p v2 xb pop e) (moveOne p v2 xb (fun i => (pop i).rescale G) (e.rescale G)) := by
  refine .ite Iff.rfl (fun _ => .ite Iff.rfl (fun _ => ?_) fun _ => ?_) fun _ => ?_
  · refine .forFin (φ := scaleF G) (s := (e.x, e.f)) fun _ b => ?_
    refine .step hG hE .choiceFin fun r => .step hG hE .repair fun a => .bind' (.eval hG hE) fun v => .pure' (betterLt_map hG _ _ _ _)
  · refine .step hG hE (by blind) fun r => .step hG hE .repairRows fun a => .bind' (.evalRows hG hE) fun af => .bind' (.argminIdx hG) fun ib => .pure' rfl
  · exact .step hG hE .randVec fun r => .step hG hE .repair fun y => .bind' (.eval hG hE) fun v => .pure' rfl

theorem updateBest_rescale (hG : Gauge G) (e : Ind D) : (e.rescale G).updateBest = e.updateBest.rescale G := by
  unfold Ind.updateBest
  simp only [Ind.rescale, hG.lt]
  split <;> rfl

/-- The first two monkey king evolution algorithms. -/
theorem C96_mke (opt : OptType) (B : Box D) (N : ℕ) (p : Par) (v2 : Bool) : Ordinal (alg opt B N p v2) fun G s i => (s i).rescale G where
  pop G s := rfl
  fit G s := ofFn_scale _
  init G env env' hG hE := .bind' (.defaultIndividualInit hG hE) fun r => crown_follows hG hE p _
  iter G env env' hG hE s xb fxb := by
    refine .bind' (.forFin (φ := fun (s : Fin N → Ind D) i => (s i).rescale G) (s := s) fun i pop => ?_) fun pop => .bind' (crown_follows hG hE p pop) fun pop =>
      .bind' (.getBestRows hG) fun b => .pure' rfl
    refine .bind' (moveOne_follows hG hE p v2 xb pop (pop i)) fun r => .pure' (funext fun j => ?_)
    by_cases h : j = i
    · subst h
      simp only [Function.update_self]
      exact updateBest_rescale hG ⟨r.1, r.2, (pop j).pb, (pop j).pbf, false⟩
    · simp only [Function.update_of_ne h]

def St3.rescale (G : Fl → Fl) (s : St3 D N) : St3 D N := ⟨s.pop, fun i => G (s.fit i)⟩

/-- The third monkey king evolution algorithm. -/
theorem C96_mke3 (B : Box D) (N : ℕ) (fc : Fl) (n : ℕ) : Ordinal (alg3 B N fc n) St3.rescale where
  pop G s := rfl
  fit G s := ofFn_scale _
  init G env env' hG hE := .bind' (.defaultNumpyInit hG hE) fun r => .pure' rfl
  iter G env env' hG hE s xb fxb := by
    refine .step hG hE .choiceRep fun r => .step hG hE .choiceRep fun r' => .step hG hE .repairRows fun gb => .bind' (.evalRows hG hE) fun gf =>
      .bind' (.getBestRows hG) fun b => .step hG hE (by unfold mixRows; blind) fun pop => .step hG hE .repairRows fun pop => .bind' (.evalRows hG hE) fun fit =>
      .bind' (.getBestRows hG) fun b => .bind' (.argmaxIdx hG) fun iw => .bind' (.argminIdx hG) fun ib => .pure' ?_
    unfold replaceWorst
    simp only [id, hG.le]
    split
    · simp only [St3.rescale, update_scale]; rfl
    · rfl

end MKE

namespace HS
variable [Arith]

def St.rescale (G : Fl → Fl) (s : St D N) : St D N := ⟨s.pop, fun i => G (s.fit i)⟩

/-- Both harmony searches. -/
theorem C96_hs (B : Box D) (N : ℕ) (p : Par) : Ordinal (alg B N p) St.rescale where
  pop G s := rfl
  fit G s := ofFn_scale _
  init G env env' hG hE := .bind' (.defaultNumpyInit hG hE) fun r => .pure' rfl
  iter G env env' hG hE := by
    have key : ∀ (s : St D N) (xb : Vec D) (fxb : Fl), Follows G env env' (fun r : St D N × Vec D × Fl => (r.1.rescale G, r.2.1, G r.2.2)) (iter B p s xb fxb)
        (iter B p (s.rescale G) xb (G fxb)) := ?_
    · exact key
    intro s xb fxb
    refine .step hG hE (by unfold improvise note bw; blind) fun h => .step hG hE .repair fun h => .bind' (.eval hG hE) fun v => .bind' (.argmaxIdx hG) fun iw => .pure' ?_
    rw [getBest1_map hG]
    simp only [id, St.rescale, hG.le]
    split
    · simp only [update_scale]; rfl
    · rfl

end HS

namespace HHO
variable [Arith]

def St.rescale (G : Fl → Fl) (s : St D N) : St D N := ⟨s.pop, fun i => G (s.fit i)⟩

theorem dive_follows {env env' : Env (Vec D)} (hG : Gauge G) (hE : Rescaled G env env') (levy : Fl) (y x : Vec D) (f : Fl) :
    Follows G env env' id (dive levy y x f) (dive levy y x (G f)) := by
  refine .step hG hE .repair fun c1 => .step hG hE .randVec fun r => .step hG hE .levyVec fun l => .step hG hE .repair fun c2 => .bind' (.eval hG hE) fun f1 => ?_
  refine .ite (hG.lt _ _) (fun _ => .pure' rfl) fun _ => .bind' (.eval hG hE) fun f2 => .pure' ?_
  simp only [hG.lt, id]

theorem C96_hho (B : Box D) (N : ℕ) (levy : Fl) : Ordinal (alg B N levy) St.rescale where
  pop G s := rfl
  fit G s := ofFn_scale _
  init G env env' hG hE := .bind' (.defaultNumpyInit hG hE) fun r => .pure' rfl
  iter G env env' hG hE s xb fxb := by
    refine .step hG hE .look fun v => .bind' (.forFin (φ := St.rescale G) (s := s) fun i s => ?_) fun s => .bind' (φ := scaleF G) ?_ fun b => .pure' rfl
    · refine .bind' (φ := id) ?_ fun y => .step hG hE .repair fun x => .bind' (.eval hG hE) fun f => .pure' ?_
      · refine .step hG hE .unif fun jump => .step hG hE .unif fun u => .step hG hE .rand fun r => ?_
        refine .ite Iff.rfl (fun _ => ?_) fun _ => .ite Iff.rfl (fun _ => ?_) fun _ => .ite Iff.rfl (fun _ => .pure' rfl) fun _ => .ite Iff.rfl (fun _ => .pure' rfl) fun _ =>
          .ite Iff.rfl (fun _ => dive_follows hG hE ..) fun _ => .ite Iff.rfl (fun _ => dive_follows hG hE ..) fun _ => .pure' rfl
        · exact .blind hG hE (by blind)
        · exact .blind hG hE (by blind)
      · simp only [St.rescale, update_scale]
    · exact .bind' (.argminIdx hG) fun i => .pure' (betterLt_map hG _ _ _ _)

end HHO


/-! ### Bat algorithms -/
namespace BA
variable [Arith]

def St.rescale (G : Fl → Fl) (s : St D N) : St D N := ⟨s.pop, fun i => G (s.fit i), s.vel, s.loud⟩

theorem C96_ba (B : Box D) (N : ℕ) (p : Par) : Ordinal (alg B N p) St.rescale where
  pop G s := rfl
  fit G s := ofFn_scale _
  init G env env' hG hE := .bind' (.defaultNumpyInit hG hE) fun r => .pure' rfl
  iter G env env' hG hE s xb fxb := by
    refine .step hG hE .look fun v => .bind' (.forFin (φ := fun r : St D N × Vec D × Fl => (r.1.rescale G, r.2.1, G r.2.2)) (s := (s, xb, fxb)) fun i a => ?_) fun r => .pure' rfl
    obtain ⟨s, xb, fxb⟩ := a
    refine .step hG hE .rand fun r => .step hG hE (by unfold candidate localSearch; blind) fun y => .bind' (.eval hG hE) fun v => ?_
    refine .bind' (φ := id) (.ite (hG.le _ _) (fun _ => .blind hG hE (by blind)) fun _ => .pure' rfl) fun accept => .pure' ?_
    rw [getBest1_map hG]
    cases accept
    · rfl
    · simp only [St.rescale, id, if_true, update_scale]; rfl

end BA

namespace BAT
variable [Arith]

omit [Arith] in
theorem judge_follows {env env' : Env (Vec D)} (hG : Gauge G) (hE : Rescaled G env env') (pop : Fin N → Vec D) (fit : Fin N → Fl) (i : Fin N) (ok : Fl → Bool) (y : Vec D) :
    Follows G env env' (fun r => (r.1, (fun i => G (r.2.1 i)), G r.2.2)) (judge pop fit i ok y) (judge pop (fun i => G (fit i)) i ok y) := by
  refine .bind' (.eval hG hE) fun v => .bind' (φ := id) (.ite (hG.le _ _) (fun _ => .blind hG hE (by blind)) fun _ => .pure' rfl) fun accept => .pure' ?_
  cases accept
  · rfl
  · simp only [id, if_true, update_scale]

def St.rescale (G : Fl → Fl) (s : St D N) : St D N := ⟨s.pop, fun i => G (s.fit i), s.vel, s.loud, s.pulse⟩

/-- The adaptive bat algorithm. -/
theorem C96_adaptive (B : Box D) (N : ℕ) (p : Par) : Ordinal (alg B N p) St.rescale where
  pop G s := rfl
  fit G s := ofFn_scale _
  init G env env' hG hE := .bind' (.defaultNumpyInit hG hE) fun r => .pure' rfl
  iter G env env' hG hE s xb fxb := by
    refine .forFin (φ := fun r : St D N × Vec D × Fl => (r.1.rescale G, r.2.1, G r.2.2)) (s := (s, xb, fxb)) fun i a => ?_
    obtain ⟨s, xb, fxb⟩ := a
    refine .step hG hE .rand fun r => .step hG hE (by unfold candidate localSearch; blind) fun y => .bind' (judge_follows hG hE s.pop s.fit i _ y) fun r => .pure' ?_
    simp only [hG.le, getBest1_map hG]
    rfl

theorem mkS_ordinal (B : Box D) (N : ℕ) (p : Par) (q : Self) {ls : Local D N} (hl : ∀ best l i pop, (ls best l i pop).Blind) : Ordinal (mkS B N p q ls) St.rescale where
  pop G s := rfl
  fit G s := ofFn_scale _
  init G env env' hG hE := .bind' (.defaultNumpyInit hG hE) fun r => .pure' rfl
  iter G env env' hG hE s xb fxb := by
    refine .forFin (φ := fun r : St D N × Vec D × Fl => (r.1.rescale G, r.2.1, G r.2.2)) (s := (s, xb, fxb)) fun i a => ?_
    obtain ⟨s, xb, fxb⟩ := a
    refine .step hG hE (by unfold adapt; blind) fun l => .step hG hE (by unfold adapt; blind) fun pr => .step hG hE .rand fun r => .step hG hE ?_ fun y =>
      .bind' (judge_follows hG hE s.pop s.fit i _ y) fun r => .pure' ?_
    · unfold candidate
      refine .bind' .rand fun r => ?_
      split
      · exact hl _ _ _ _
      · exact .repair
    · simp only [getBest1_map hG]
      rfl

/-- The self-adaptive bat algorithm. -/
theorem C96_self (B : Box D) (N : ℕ) (p : Par) (q : Self) : Ordinal (algS B N p q) St.rescale := mkS_ordinal B N p q fun _ _ _ _ => by unfold localSearch; blind

/-- The hybrid self-adaptive bat algorithm. -/
theorem C96_hybrid_self (B : Box D) (N : ℕ) (p : Par) (q : Self) {strat : DE.Strategy D} (hs : DE.BlindStrategy strat) (f cr : Fl) :
    Ordinal (algHS B N p q strat f cr) St.rescale := mkS_ordinal B N p q fun best l i pop => .bind' (hs pop i f cr best) fun y => .repair

/-- The hybrid bat algorithm. -/
theorem C96_hybrid (B : Box D) (N : ℕ) (p : BA.Par) {c : Callee D} (hs : DE.BlindStrategy c.run) (f cr : Fl) : Ordinal (algH B N p c f cr) BA.St.rescale where
  pop G s := rfl
  fit G s := ofFn_scale _
  init G env env' hG hE := .bind' (.defaultNumpyInit hG hE) fun r => .pure' rfl
  iter G env env' hG hE s xb fxb := by
    refine .step hG hE .look fun v => .bind' (.forFin (φ := fun r : BA.St D N × Vec D × Fl => (r.1.rescale G, r.2.1, G r.2.2)) (s := (s, xb, fxb)) fun i a => ?_) fun r => .pure' rfl
    obtain ⟨s, xb, fxb⟩ := a
    refine .step hG hE .rand fun r => .step hG hE ?_ fun y => .bind' (judge_follows hG hE s.pop s.fit i _ y) fun r => .pure' ?_
    · unfold candidateH localH
      refine .bind' .rand fun r => ?_
      split
      · refine .bind' ?_ fun _ => .repair
        split
        · exact hs _ _ _ _ _
        · trivial
      · exact .repair
    · simp only [getBest1_map hG]
      rfl

def StP.rescale (G : Fl → Fl) (s : StP D N) : StP D N := ⟨s.pop, fun i => G (s.fit i), s.vel⟩

/-- The parameter-free bat algorithm. -/
theorem C96_free (B : Box D) (N : ℕ) : Ordinal (algP B N) StP.rescale where
  pop G s := rfl
  fit G s := ofFn_scale _
  init G env env' hG hE := .bind' (.defaultNumpyInit hG hE) fun r => .pure' rfl
  iter G env env' hG hE s xb fxb := by
    refine .forFin (φ := fun r : StP D N × Vec D × Fl => (r.1.rescale G, r.2.1, G r.2.2)) (s := (s, xb, fxb)) fun i a => ?_
    obtain ⟨s, xb, fxb⟩ := a
    refine .step hG hE (by unfold width; blind) fun w => .step hG hE .norm fun z => .step hG hE (by unfold candidateP; blind) fun y =>
      .bind' (judge_follows hG hE s.pop s.fit i _ y) fun r => .pure' ?_
    simp only [getBest1_map hG]
    rfl

end BAT

/-! ### Bees algorithm -/
theorem Follows.rangeLoop {X σ τ : Type} {env env' : Env X} {φ : σ → τ} {n a b : ℕ} {f : Fin n → σ → Prog X σ} {k : Fin n → τ → Prog X τ} {s : σ}
    (h : ∀ i s, Follows G env env' φ (f i s) (k i (φ s))) : Follows G env env' φ (NiaPy.rangeLoop n a b f s) (NiaPy.rangeLoop n a b k (φ s)) := by
  refine .forFin fun i s => ?_
  split
  · exact h _ s
  · exact .throw

namespace BEA
variable [Arith]

def St.rescale (G : Fl → Fl) (s : St D N) : St D N := ⟨s.pop, fun i => G (s.fit i), s.ngh⟩

omit [Arith] in
theorem sorted_follows {env env' : Env (Vec D)} (hE : Rescaled G env env') (s : St D N) : Follows G env env' (St.rescale G) (sorted s) (sorted (s.rescale G)) :=
  .bind' (.sortIdx hE) fun si => .pure' rfl

theorem site_follows {env env' : Env (Vec D)} (hG : Gauge G) (hE : Rescaled G env env') (n : ℕ) (i : Fin N) (s : St D N) :
    Follows G env env' (St.rescale G) (site n i s) (site n i (s.rescale G)) := by
  have h0 := Follows.forFin (G := G) (env := env) (env' := env') (φ := fun b : Option (Vec D) × Fl => (b.1, G b.2)) (n := n) (s := (none, .pinf))
    (f := fun _ (b : Option (Vec D) × Fl) => do
      let (y, v) ← beeDance (s.pop i) s.ngh
      return if v < b.2 then (some y, v) else b)
    (k := fun _ (b : Option (Vec D) × Fl) => do
      let (y, v) ← beeDance (s.pop i) s.ngh
      return if v < b.2 then (some y, v) else b) fun _ b => by
    refine .bind' (φ := scaleF G) (.step hG hE .intFin fun ind => .step hG hE .unif fun u => .step hG hE .repair fun y => .bind' (.eval hG hE) fun v => .pure' rfl) fun r => .pure' ?_
    simp only [scaleF, hG.lt]
    split <;> rfl
  rw [hG.pinf] at h0
  refine .bind' h0 fun b => .ite (hG.lt _ _) (fun _ => ?_) fun _ => .pure' rfl
  obtain ⟨bp, bc⟩ := b
  cases bp with
  | none => exact .throw
  | some y => exact .pure' (by simp only [St.rescale, update_scale])

theorem C96_bea (B : Box D) (N : ℕ) (p : Par) : Ordinal (alg B N p) St.rescale where
  pop G s := rfl
  fit G s := ofFn_scale _
  init G env env' hG hE := .bind' (.defaultNumpyInit hG hE) fun r => sorted_follows hE ⟨r.1, r.2, p.ngh⟩
  iter G env env' hG hE s xb fxb := by
    refine .bind' (.rangeLoop fun i s => site_follows hG hE p.nep i s) fun s => .bind' (.rangeLoop fun i s => site_follows hG hE p.nsp i s) fun s =>
      .bind' (.rangeLoop fun i s => ?_) fun s => .bind' (sorted_follows hE s) fun s => ?_
    · exact .step hG hE .unifVec fun y => .bind' (.eval hG hE) fun v => .pure' (by simp only [St.rescale, update_scale])
    · dsimp only
      split
      · exact .pure' rfl
      · exact .throw

end BEA

/-! ### Self-adaptive differential evolution -/
namespace JDE
open DE
variable [Arith]

theorem move_cast {n m : ℕ} (h : n = m) {env env' : Env (Vec D)} (hG : Gauge G) (hE : Rescaled G env env') {strat : Strategy D} (hs : BlindStrategy strat) (ps : Fin n → SA)
    (pop : Fin n → Vec D) (pop' : Fin m → Vec D) (hp : ∀ i, pop' (i.cast h) = pop i) (xb : Vec D) :
    Follows G env env' (fun r i => r (i.cast h.symm))
      (forFin n (fun i xs => do
        let x ← strat xs i (ps i).f (ps i).cr xb
        return Function.update xs i x) pop)
      (forFin m (fun i xs => do
        let x ← strat xs i (ps (i.cast h.symm)).f (ps (i.cast h.symm)).cr xb
        return Function.update xs i x) pop') := by
  subst h
  have : pop' = pop := funext hp
  subst this
  exact .blind hG hE (.forFin fun i xs => .bind' (hs _ _ _ _ _) fun _ => .pure')

theorem evolve_ordinal {strat : Strategy D} (hs : BlindStrategy strat) (p : Par) : OrdinalEvolve (evolve strat p) := by
  intro G env env' hG hE l xb
  refine .bind' (φ := fun (r : Fin l.length → SA) (i : Fin (l.map (Ind.rescale G)).length) => r (i.cast (List.length_map _))) ?_ fun ps => ?_
  · refine tabM_cast (φ := id) (List.length_map _).symm fun i => ?_
    rw [show ((l.map (Ind.rescale G)).get (i.cast (List.length_map _).symm)).ext = (l.get i).ext by simp [Ind.rescale]]
    exact .blind hG hE (by unfold adapt newF newCR; blind)
  · refine .bind' (move_cast (List.length_map _).symm hG hE hs ps (pts l) (pts (l.map (Ind.rescale G))) (pts_rescale l) xb) fun xs => ?_
    exact tabM_cast (List.length_map _).symm fun i => .step hG hE .repair fun x => .bind' (.eval hG hE) fun v => .pure' rfl

/-- Self-adaptive differential evolution. -/
theorem C96_jde (opt : OptType) (B : Box D) (N : ℕ) {strat : Strategy D} (hs : BlindStrategy strat) (p : Par) : Ordinal (alg opt B N strat p) fun G l => l.map (Ind.rescale G) :=
  ordinal (evolve_ordinal hs p) fun _ _ _ _ _ _ => .pure' rfl

theorem C96_jde_multi (opt : OptType) (B : Box D) (N : ℕ) {strats : List (Strategy D)} (hs : ∀ st ∈ strats, BlindStrategy st) (f cr : Fl) :
    Ordinal (algMulti opt B N strats f cr) fun G l => l.map (Ind.rescale G) := ordinal (.evolveMulti hs f cr) fun _ _ _ _ _ _ => .pure' rfl

end JDE

/-! ### Genetic algorithm -/
namespace GA
variable [Arith]

theorem otherLoop_blind (ic : Fin N) (fuel : ℕ) (io : Fin N) : (otherLoop ic fuel io : Prog (Vec D) (Fin N)).Blind := by
  induction fuel generalizing io with
  | zero => unfold otherLoop; blind
  | succ n ih =>
    unfold otherLoop
    split
    · exact .bind' .intFin ih
    · exact .pure'

theorem cross_blind (c : Cross) (fuel : ℕ) (pop : Fin N → Indiv D) (ic : Fin N) : (c.run fuel pop ic).Blind := by
  unfold Cross.run other
  cases c <;> exact .bind' (otherLoop_blind ic fuel ic) fun io => by blind

theorem mut_blind (m : Mut) (B : Box D) (pop : Fin N → Indiv D) (ic : Fin N) : (m.run B pop ic).Blind := by
  unfold Mut.run mutCoord
  cases m <;> dsimp only <;> blind

omit [Arith] in
theorem update_indiv (s : Fin N → Indiv D) (i : Fin N) (e : Indiv D) :
    Function.update (fun j => (s j).rescale G) i (e.rescale G) = fun j => (Function.update s i e j).rescale G := by
  funext j
  by_cases h : j = i
  · subst h; simp
  · simp [Function.update_of_ne h]

/-- The genetic algorithm with tournament selection. -/
theorem C96_ga (opt : OptType) (B : Box D) (N : ℕ) (ts : ℕ) (c : Cross) (mu : Mut) (fuel : ℕ) :
    Ordinal (alg opt B N ⟨.tournament ts, c, mu⟩ fuel) fun G s i => (s i).rescale G where
  pop G s := rfl
  fit G s := ofFn_scale _
  init G env env' hG hE := .defaultIndividualInit hG hE
  iter G env env' hG hE := by
    have key : ∀ (pop : Fin N → Indiv D) (xb : Vec D) (fxb : Fl), Follows G env env' (fun r : (Fin N → Indiv D) × Vec D × Fl => ((fun i => (r.1 i).rescale G), r.2.1, G r.2.2))
        (iter B ⟨.tournament ts, c, mu⟩ fuel pop xb fxb) (iter B ⟨.tournament ts, c, mu⟩ fuel (fun i => (pop i).rescale G) xb (G fxb)) := ?_
    · exact key
    intro pop xb fxb
    refine .forFin (φ := fun r : (Fin N → Indiv D) × Vec D × Fl => ((fun i => (r.1 i).rescale G), r.2.1, G r.2.2)) (s := (pop, xb, fxb)) fun i a => ?_
    refine .bind' (φ := fun r : Indiv D × Vec D × Fl => (r.1.rescale G, r.2.1, G r.2.2)) ?_ fun r => .pure' (by rw [update_indiv])
    refine .bind' (φ := id) ?_ fun _ => .bind' (φ := id) ?_ fun _ => .bind' (φ := id) ?_ fun x => .bind' (.evaluate hG hE rfl) fun ind => .pure' ?_
    · refine .step hG hE .choiceFin fun ch => .bind' (φ := id) ?_ fun w => .pure' rfl
      have := Follows.argminRec (X := Vec D) (G := G) (env := env) (env' := env') hG.keeps (val := fun i : Fin ts => (pop (ch i)).f) (val' := fun i => G (pop (ch i)).f)
        (φ := id) (fun _ => rfl) (l := List.finRange ts)
      rwa [List.map_id] at this
    · have e : c.run fuel (fun i => (pop i).rescale G) i = c.run fuel pop i := by cases c <;> rfl
      rw [e]
      exact .blind hG hE (cross_blind c fuel pop i)
    · have e : mu.run B (fun i => (pop i).rescale G) i = mu.run B pop i := by cases mu <;> rfl
      rw [e]
      exact .blind hG hE (mut_blind mu B pop i)
    · simp only [show (ind.rescale G).f = G ind.f from rfl, hG.lt, getBest1_map hG]
      split <;> rfl

end GA

/-! ### Evolution strategies -/
namespace ES
variable [Arith]

def Ind.rescale (G : Fl → Fl) (e : Ind D) : Ind D := ⟨e.x, G e.f, e.rho⟩
def St.rescale (G : Fl → Fl) (s : St D) : St D := ⟨s.c.rescale G, s.ki⟩
def StL.rescale (G : Fl → Fl) (s : StL D) : StL D := ⟨s.pop.map (Ind.rescale G), s.ki⟩

theorem mutate_blind (x : Vec D) (rho : Fl) : (mutate x rho).Blind := by unfold mutate; blind

theorem C96_es1 (opt : OptType) (B : Box D) (p : Par) : Ordinal (alg1 opt B p) St.rescale where
  pop G s := rfl
  fit G s := rfl
  init G env env' hG hE := .bind' (.indivRandom hG hE) fun i => .pure' rfl
  iter G env env' hG hE := by
    have key : ∀ (s : St D) (xb : Vec D) (fxb : Fl), Follows G env env' (fun r : St D × Vec D × Fl => (r.1.rescale G, r.2.1, G r.2.2)) (iter p s xb fxb)
        (iter p (s.rescale G) xb (G fxb)) := ?_
    · exact key
    intro s xb fxb
    refine .step hG hE .look fun v => .ite Iff.rfl (fun _ => .throw) fun _ => ?_
    rw [show adapt p v.iters (s.rescale G) = (adapt p v.iters s).rescale G by unfold adapt; split <;> rfl]
    generalize adapt p v.iters s = s
    refine .step hG hE (.mapM' fun _ => .bind' (mutate_blind _ _) fun _ => .repair) fun cn => .bind' (.evalRecs hG hE) fun cn =>
      .bind' (.argminRec hG.keeps (val := fun e : Vec D × Fl => e.2) (val' := fun e : Vec D × Fl => e.2) (φ := scaleF G) fun _ => rfl) fun b => .pure' ?_
    unfold accept
    simp only [scaleF, St.rescale, Ind.rescale, hG.lt, getBest1_map hG]
    split
    · split <;> rfl
    · rfl

theorem eqB_gauge (hG : Gauge G) (a b : Fl) : Fl.eqB (G a) (G b) = Fl.eqB a b := by
  simp only [Fl.eqB, hG.inj, ne_eq, hG.nan]

theorem mutateRand_follows {env env' : Env (Vec D)} (hG : Gauge G) (hE : Rescaled G env env') (mu : ℕ) (l : List (Ind D)) :
    Follows G env env' id (mutateRand mu l) (mutateRand mu (l.map (Ind.rescale G))) := by
  refine .step hG hE .int fun i => ?_
  rw [List.getElem?_map]
  cases l[i]? with
  | none => exact .throw
  | some c => exact .blind hG hE (.bind' (mutate_blind _ _) fun _ => .repair)

theorem newInd_follows {env env' : Env (Vec D)} (hG : Gauge G) (hE : Rescaled G env env') (x : Vec D) (b : Bool) : Follows G env env' (Ind.rescale G) (newInd x b) (newInd x b) :=
  .step hG hE .repair fun x => .bind' (.eval hG hE) fun f => .pure' rfl

theorem initL_follows {env env' : Env (Vec D)} (hG : Gauge G) (hE : Rescaled G env env') (opt : OptType) (B : Box D) (mu : ℕ) :
    Follows G env env' (StL.rescale G) (initL opt B mu) (initL opt B mu) :=
  .bind' (.defaultIndividualInit hG hE) fun p => .pure' (by simp only [StL.rescale, List.map_ofFn]; rfl)

theorem updateRhos_rescale (p : Par) (l : List (Ind D)) (ki : ℕ) : updateRhos p (l.map (Ind.rescale G)) ki = (updateRhos p l ki).map (Ind.rescale G) := by
  unfold updateRhos
  dsimp only
  split
  · simp only [List.map_map]; rfl
  · split
    · simp only [List.map_map]; rfl
    · rfl

theorem changeCount_rescale (hG : Gauge G) (c : List (Ind D)) (cn : List (Ind D × Bool)) :
    changeCount (c.map (Ind.rescale G)) (cn.map fun e => (e.1.rescale G, e.2)) = changeCount c cn := by
  unfold changeCount
  rw [List.filter_map, List.length_map]
  simp only [Function.comp_def, List.any_map, Indiv.beq, Ind.rescale, eqB_gauge hG]

theorem best_follows {env env' : Env (Vec D)} (hG : Gauge G) (l : List (Ind D)) (xb : Vec D) (fxb : Fl) :
    Follows G env env' (scaleF G) (Prog.getBest (l.map (·.x)) (l.map (·.f)) xb fxb)
      (Prog.getBest ((l.map (Ind.rescale G)).map (·.x)) ((l.map (Ind.rescale G)).map (·.f)) xb (G fxb)) := by
  rw [show (l.map (Ind.rescale G)).map (·.x) = l.map (·.x) by simp [List.map_map, Function.comp_def, Ind.rescale],
    show (l.map (Ind.rescale G)).map (·.f) = (l.map (·.f)).map G by simp [List.map_map, Function.comp_def, Ind.rescale]]
  exact .getBest hG

/-- The (mu + lambda) evolution strategy and (mu + 1). -/
theorem C96_esl (opt : OptType) (B : Box D) (p : Par) (lam : ℕ) : Ordinal (algL opt B p lam) StL.rescale where
  pop G s := by
    have key : ∀ l : List (Ind D), (l.map (Ind.rescale G)).map (·.x) = l.map (·.x) := fun l => by simp [List.map_map, Function.comp_def, Ind.rescale]
    exact key _
  fit G s := by
    have key : ∀ l : List (Ind D), (l.map (Ind.rescale G)).map (·.f) = (l.map (·.f)).map G := fun l => by simp [List.map_map, Function.comp_def, Ind.rescale]
    exact key _
  init G env env' hG hE := initL_follows hG hE opt B p.mu
  iter G env env' hG hE := by
    have key : ∀ (s : StL D) (xb : Vec D) (fxb : Fl), Follows G env env' (fun r : StL D × Vec D × Fl => (r.1.rescale G, r.2.1, G r.2.2)) (iterL p lam s xb fxb)
        (iterL p lam (s.rescale G) xb (G fxb)) := ?_
    · exact key
    intro s xb fxb
    refine .step hG hE .look fun v => .ite Iff.rfl (fun _ => .throw) fun _ => ?_
    rw [show adaptL p v.iters (s.rescale G) = (adaptL p v.iters s).rescale G by
      unfold adaptL
      split
      · simp only [StL.rescale, updateRhos_rescale]
      · rfl]
    generalize adaptL p v.iters s = s
    refine .bind' (.mapMS fun _ => .bind' (mutateRand_follows hG hE p.mu s.pop) fun y => newInd_follows hG hE y true) fun cn => ?_
    have e : ((cn.map (Ind.rescale G)).map (·, false) ++ (s.rescale G).pop.map (·, true)) =
        (cn.map (·, false) ++ s.pop.map (·, true)).map fun e : Ind D × Bool => (e.1.rescale G, e.2) := by
      simp [StL.rescale, List.map_map, Function.comp_def]
    rw [e]
    refine .bind' (.sortRecs hE (val := fun e : Ind D × Bool => e.1.f) (val' := fun e : Ind D × Bool => e.1.f) (φ := fun e : Ind D × Bool => (e.1.rescale G, e.2)) fun _ => rfl) fun cn => ?_
    dsimp only
    rw [← List.map_take, show (s.rescale G).pop = s.pop.map (Ind.rescale G) from rfl, changeCount_rescale hG]
    have e2 : ∀ l : List (Ind D × Bool), (l.map fun e : Ind D × Bool => (e.1.rescale G, e.2)).map (·.1) = (l.map (·.1)).map (Ind.rescale G) := fun l => by
      simp [List.map_map, Function.comp_def]
    rw [e2]
    exact .bind' (best_follows hG _ xb fxb) fun b => .pure' rfl

/-- The (mu, lambda) evolution strategy. -/
theorem C96_esm (opt : OptType) (B : Box D) (mu lam : ℕ) : Ordinal (algM opt B mu lam) fun G l => l.map (Ind.rescale G) where
  pop G s := by
    have key : ∀ l : List (Ind D), (l.map (Ind.rescale G)).map (·.x) = l.map (·.x) := fun l => by simp [List.map_map, Function.comp_def, Ind.rescale]
    exact key _
  fit G s := by
    have key : ∀ l : List (Ind D), (l.map (Ind.rescale G)).map (·.f) = (l.map (·.f)).map G := fun l => by simp [List.map_map, Function.comp_def, Ind.rescale]
    exact key _
  init G env env' hG hE := .bind' (initL_follows hG hE opt B mu) fun s => .pure' rfl
  iter G env env' hG hE := by
    have key : ∀ (l : List (Ind D)) (xb : Vec D) (fxb : Fl), Follows G env env' (fun r : List (Ind D) × Vec D × Fl => (r.1.map (Ind.rescale G), r.2.1, G r.2.2))
        (iterM mu lam l xb fxb) (iterM mu lam (l.map (Ind.rescale G)) xb (G fxb)) := ?_
    · exact key
    intro l xb fxb
    refine .bind' (.mapMS fun _ => .bind' (mutateRand_follows hG hE mu l) fun y => newInd_follows hG hE y false) fun cn => .bind' (φ := List.map (Ind.rescale G)) ?_ fun l =>
      .bind' (best_follows hG _ xb fxb) fun b => .pure' rfl
    refine .bind' (.sortRecs hE (val := fun e : Ind D => e.f) (val' := fun e : Ind D => e.f) (φ := Ind.rescale G) fun _ => rfl) fun r => ?_
    refine .ite Iff.rfl (fun _ => .pure' (by rw [List.map_take])) fun _ => .ite Iff.rfl (fun _ => .throw) fun _ => .pure' ?_
    rw [List.map_flatMap]
    simp only [List.map_take]

end ES

/-! ### Variants of particle swarm optimization -/
namespace PSO
variable [Arith]

theorem opposites_follows {env env' : Env (Vec D)} (hG : Gauge G) (hE : Rescaled G env env') (B : Box D) (s : St D N) :
    Follows G env env' (List.map (scaleF G)) (opposites B s) (opposites B (s.rescale G)) := by
  refine .bind' (.evalRecs hG hE) fun opp => ?_
  have e : (List.ofFn fun i => ((s.rescale G).pop i, (s.rescale G).fit i)) ++ opp.map (scaleF G) = ((List.ofFn fun i => (s.pop i, s.fit i)) ++ opp).map (scaleF G) := by
    rw [List.map_append, List.map_ofFn]; rfl
  rw [e]
  exact .sortRecs hE (val := fun e : Vec D × Fl => e.2) (val' := fun e : Vec D × Fl => e.2) (φ := scaleF G) fun _ => rfl

theorem relearn_rescale (hG : Gauge G) (s : St D N) (l : List (Vec D × Fl)) : (s.rescale G).relearn (l.map (scaleF G)) = (s.relearn l).rescale G := by
  have e : ∀ i : Fin N, ((l.map (scaleF G))[(i : ℕ)]?).getD ((s.rescale G).pop i, (s.rescale G).fit i) = scaleF G ((l[(i : ℕ)]?).getD (s.pop i, s.fit i)) := fun i => by
    rw [List.getElem?_map]
    cases l[(i : ℕ)]? <;> rfl
  unfold St.relearn
  simp only [e]
  simp only [St.rescale, scaleF, hG.lt, St.mk.injEq, true_and, and_true]
  funext i
  split <;> rfl

def OSt.rescale (G : Fl → Fl) (s : OSt D N) : OSt D N := ⟨s.sw.rescale G, s.vmin, s.vmax⟩

/-- Opposition-based particle swarm optimization. -/
theorem C96_ovcpso (B : Box D) (N : ℕ) (p : OPar D) : Ordinal (algO B N p) OSt.rescale where
  pop G s := rfl
  fit G s := ofFn_scale _
  init G env env' hG hE := by
    refine .bind' (.bind' (.defaultNumpyInit hG hE) fun r => .pure' rfl) fun s => .bind' (opposites_follows hG hE B s) fun l => .pure' ?_
    rw [relearn_rescale hG]
    rfl
  iter G env env' hG hE := by
    have key : ∀ (s : OSt D N) (xb : Vec D) (fxb : Fl), Follows G env env' (fun r : OSt D N × Vec D × Fl => (r.1.rescale G, r.2.1, G r.2.2)) (iterO B p s xb fxb)
        (iterO B p (s.rescale G) xb (G fxb)) := ?_
    · exact key
    intro s xb fxb
    refine .step hG hE .rand fun r => .ite Iff.rfl (fun _ => .bind' (opposites_follows hG hE B s.sw) fun l => ?_) fun _ => .step hG hE .look fun t => ?_
    · cases l with
      | nil => exact .throw
      | cons e l =>
        refine .pure' ?_
        have := relearn_rescale hG s.sw (e :: l)
        simp only [List.map_cons] at this
        simp only [List.map_cons, scaleF, betterLt_map hG, OSt.rescale]
        simp only [scaleF] at this
        rw [this]
    · refine .bind' (.forFin (φ := resc G) (s := (s.sw, xb, fxb)) fun i a => particle_follows hG hE (BlindVel.vel _ _ _ _) true i a) fun r => .pure' rfl

def CSt.rescale (G : Fl → Fl) (s : CSt D N) : CSt D N := ⟨s.sw.rescale G, s.flag⟩

theorem exemplar_rescale (hG : Gauge G) (s : St D N) (i : Fin N) : exemplar (s.rescale G) i = exemplar s i := by
  unfold exemplar
  simp only [St.rescale, hG.lt]

/-- Comprehensive learning particle swarm optimization. -/
theorem C96_clpso (B : Box D) (N : ℕ) (p : CPar D) : Ordinal (algC B N p) CSt.rescale where
  pop G s := rfl
  fit G s := ofFn_scale _
  init G env env' hG hE := by
    refine .bind' (φ := St.rescale G) (.bind' (.defaultNumpyInit hG hE) fun r => .pure' rfl) fun s => ?_
    split
    · exact .bind' (φ := id) .throw fun _ => .pure' rfl
    · exact .pure' rfl
  iter G env env' hG hE := by
    have key : ∀ (s : CSt D N) (xb : Vec D) (fxb : Fl), Follows G env env' (fun r : CSt D N × Vec D × Fl => (r.1.rescale G, r.2.1, G r.2.2)) (iterC B p s xb fxb)
        (iterC B p (s.rescale G) xb (G fxb)) := ?_
    · exact key
    intro s xb fxb
    refine .step hG hE .look fun t => .forFin (φ := fun r : CSt D N × Vec D × Fl => (r.1.rescale G, r.2.1, G r.2.2)) (s := (s, xb, fxb)) fun i a => ?_
    refine .bind' (φ := fun r : CSt D N × Vec D × Fl => (r.1.rescale G, r.2.1, G r.2.2)) ?_ fun a => ?_
    · refine .ite Iff.rfl (fun _ => ?_) fun _ => .pure' rfl
      exact .bind' (particle_follows hG hE (BlindVel.vel _ _ _ _) true i (a.1.sw, a.2)) fun r => .pure' rfl
    · unfold learnCl
      rw [show ((a.1.rescale G, a.2.1, G a.2.2).1 : CSt D N).sw = a.1.sw.rescale G from rfl, exemplar_rescale hG]
      refine .step hG hE (by unfold exemplar; blind) fun pb => .step hG hE (by unfold velCl; blind) fun v => ?_
      dsimp only
      refine .ite Iff.rfl (fun _ => .bind' (.eval hG hE) fun f => .pure' ?_) fun _ => .pure' rfl
      rw [record_rescale hG]
      have := global_rescale hG true (a.1.sw.pbf i) (fun j => a.1.sw.pop i j + v j) f a.2.1 a.2.2
      exact Prod.ext rfl this

end PSO

/-! ### Nelder-Mead method -/
namespace NM
variable [Arith]

def St.rescale (G : Fl → Fl) (s : St D N) : St D N := ⟨s.pop, fun i => G (s.fit i)⟩

theorem setLast_rescale (s : St D N) (h : 0 < N) (x : Vec D) (v : Fl) : setLast (s.rescale G) h x (G v) = (setLast s h x v).rescale G := by
  simp only [setLast, St.rescale, update_scale]

theorem C96_nm (B : Box D) (N : ℕ) (p : Par) : Ordinal (alg B N p) St.rescale where
  pop G s := rfl
  fit G s := ofFn_scale _
  init G env env' hG hE := .bind' (.defaultNumpyInit hG hE) fun r => .pure' rfl
  iter G env env' hG hE s xb fxb := by
    refine .bind' (.sortIdx hE) fun si => .bind' (φ := St.rescale G) ?_ fun s => .bind' (.getBestRows hG) fun b => .pure' rfl
    generalize hs : (⟨fun i => St.pop s (si i), fun i => St.fit s (si i)⟩ : St D N) = t
    have hs' : (⟨fun i => St.pop (St.rescale G s) (si i), fun i => St.fit (St.rescale G s) (si i)⟩ : St D N) = t.rescale G := by rw [← hs]; rfl
    change Follows G env env' (St.rescale G) (method p t) (method p ⟨fun i => St.pop (St.rescale G s) (si i), fun i => St.fit (St.rescale G s) (si i)⟩)
    rw [hs']
    unfold method
    split
    · rename_i h
      refine .bind' (.eval hG hE) fun rs => .bind' (φ := id) ?_ fun b => .ite Iff.rfl (fun _ => .pure' (setLast_rescale ..)) fun _ => .ite (hG.lt _ _) (fun _ => ?_) fun _ => ?_
      · refine .ite (hG.le _ _) (fun _ => ?_) fun _ => .pure' rfl
        split
        · exact .pure' (by simp only [St.rescale, hG.lt, id])
        · exact .throw
      · refine .bind' (.eval hG hE) fun re => .pure' ?_
        simp only [hG.lt, setLast_rescale]
        split <;> rfl
      · refine .bind' (.eval hG hE) fun rc => .ite (hG.lt _ _) (fun _ => .pure' (setLast_rescale ..)) fun _ => .bind' (.evalRows hG hE) fun f => .pure' ?_
        simp only [St.rescale, shrunk, St.mk.injEq]
        refine ⟨rfl, funext fun i => ?_⟩
        unfold setTail
        split <;> rfl
    · exact .throw

end NM

/-! ### Monarch butterfly optimization -/
namespace MBO
variable [Arith]

def St.rescale (G : Fl → Fl) (s : St D N) : St D N := ⟨s.pop, fun i => G (s.fit i), s.cur⟩

theorem row_blind (pop : Fin N → Vec D) (k : ℕ) : (row pop k).Blind := by unfold row; blind

theorem evalSort_follows {env env' : Env (Vec D)} (hG : Gauge G) (hE : Rescaled G env env') (pop : Fin N → Vec D) :
    Follows G env env' (fun r => (r.1, fun i => G (r.2 i))) (evalSort pop) (evalSort pop) :=
  .bind' (.evalRows hG hE) fun fit => .bind' (.sortIdx hE) fun si => .pure' rfl

theorem C96_mbo (B : Box D) (N : ℕ) (p : Par) : Ordinal (alg B N p) St.rescale where
  pop G s := rfl
  fit G s := ofFn_scale _
  init G env env' hG hE := .bind' (.defaultNumpyInit hG hE) fun r => .bind' (.sortIdx hE) fun si => .pure' rfl
  iter G env env' hG hE s xb fxb := by
    refine .step hG hE .look fun v => .step hG hE ?_ fun p1 => .step hG hE .repairRows fun p1 => .step hG hE ?_ fun cur => .step hG hE ?_ fun p2 =>
      .step hG hE .repairRows fun p2 => .bind' (evalSort_follows hG hE p2) fun r => .step hG hE (row_blind _ _) fun cur =>
      .bind' (evalSort_follows hG hE _) fun r => .bind' (.getBestRows hG) fun b => .pure' rfl
    · unfold migrate migrate1 row; blind
    · unfold current row; blind
    · unfold adjust adjustRow adjust1 levy second row; blind

end MBO

/-! ### Mantis shrimp optimization -/
namespace MSHOA
variable [Arith]

def St.rescale (G : Fl → Fl) (s : St D N) : St D N := ⟨s.pop, fun i => G (s.fit i), s.pti⟩

theorem C96_mshoa (B : Box D) (N : ℕ) (p : Par) : Ordinal (alg B N p) St.rescale where
  pop G s := rfl
  fit G s := ofFn_scale _
  init G env env' hG hE := .bind' (.defaultNumpyInit hG hE) fun r => .bind' (.evalRows hG hE) fun fit => .step hG hE .randVec fun r => .pure' rfl
  iter G env env' hG hE s xb fxb := by
    refine .step hG hE (by unfold strategies drawFor; blind) fun new => .step hG hE (by unfold fix; blind) fun new => .bind' (.evalRows hG hE) fun fit =>
      .bind' (φ := scaleF G) (.bind' (.argminIdx hG) fun i => .pure' (betterLt_map hG _ _ _ _)) fun b => .step hG hE .randVec fun r => .pure' rfl

end MSHOA

end NiaPy
