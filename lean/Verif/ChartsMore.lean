import Verif.ChartsAlgs
import Verif.Algo.ES
import Verif.Algo.GSA
import Verif.Algo.GSO
import Verif.Algo.GWO
import Verif.Algo.BAT
import Verif.Algo.BEA
import Verif.Algo.CLONALG
import Verif.Algo.SCA
import Verif.Algo.PSOVariants

/-!
# C98: moving the problem moves the search — further algorithms
-/

namespace NiaPy
variable {D N : ℕ} {a : Chart D} {env env' : Env (Vec D)}

theorem euclid_shift [Arith] [ExactOps] (hs : a.Shift) (x y : Vec D) : euclid (a.pt x) (a.pt y) = euclid x y := by
  unfold euclid
  congr 1
  funext d
  simp only [Chart.pt, hs d, Fl.shift_sub]

/-! ### Evolution strategies -/
namespace ES
variable [Arith] [ExactOps]

def Ind.move (a : Chart D) (e : Ind D) : Ind D := ⟨a.pt e.x, e.f, e.rho⟩

omit [Arith] [ExactOps] in
theorem map_x (l : List (Ind D)) : (l.map (Ind.move a)).map (·.x) = (l.map (·.x)).map a.pt := by simp [List.map_map, Function.comp_def, Ind.move]
omit [Arith] [ExactOps] in
theorem map_f (l : List (Ind D)) : (l.map (Ind.move a)).map (·.f) = l.map (·.f) := by simp [List.map_map, Function.comp_def, Ind.move]

theorem mutate_mirrors (hs : a.Shift) (hE : Recharted a env env') (x : Vec D) (rho : Fl) : Mirrors a env env' a.pt (mutate x rho) (mutate (a.pt x) rho) := by
  refine .step hE .normVec fun z => .pure' ?_
  shift hs

def St.move (a : Chart D) (s : St D) : St D := ⟨s.c.move a, s.ki⟩

omit [ExactOps] in
theorem adapt_move (p : Par) (n : ℕ) (s : St D) : adapt p n (s.move a) = (adapt p n s).move a := by
  unfold adapt
  split <;> rfl

omit [Arith] [ExactOps] in
theorem accept_move (s : St D) (b : Vec D × Fl) (xb : Vec D) (fxb : Fl) :
    accept (s.move a) (a.sol b) (a.pt xb) fxb = ((accept s b xb fxb).1.move a, a.sol (accept s b xb fxb).2) := by
  by_cases h : b.2 < s.c.f
  · by_cases h' : b.2 < fxb
    · simp only [accept, St.move, Ind.move, Chart.sol, h, h', if_true]
      rw [show (getBest1 (a.pt b.1) b.2 (a.pt xb) fxb) = _ from getBest1_move ..]
      rfl
    · simp only [accept, St.move, Ind.move, Chart.sol, h, h', if_true, if_false]
  · simp only [accept, St.move, Ind.move, Chart.sol, h, if_false]

theorem iter_mirrors (hs : a.Shift) (hE : Recharted a env env') (p : Par) (s : St D) (xb : Vec D) (fxb : Fl) :
    Mirrors a env env' (fun r => (r.1.move a, a.sol r.2)) (iter p s xb fxb) (iter p (s.move a) (a.pt xb) fxb) := by
  refine .step hE .look fun v => .ite Iff.rfl (fun _ => .throw) fun _ => ?_
  simp only [adapt_move]
  refine .bind' (.mapMS fun _ _ => .bind' (mutate_mirrors hs hE _ _) fun y => .repair hE) fun cn => .bind' (.evalRecs hE) fun cn =>
    .bind' (.argminRec (φ := a.sol) (val := (·.2)) (val' := (·.2)) fun r => rfl) fun b => .pure' (accept_move ..)

/-- If only the origin is moved. -/
theorem C98_es1 (hs : a.Shift) (opt : OptType) (B : Box D) (p : Par) : Carries a (alg1 opt B p) (alg1 opt (B.move a) p) (St.move a) where
  pop s := rfl
  fit s := rfl
  init env env' hE := .bind' (.indivRandom hE) fun i => .pure' rfl
  iter env env' hE s xb fxb := iter_mirrors hs hE p s xb fxb

theorem mutateRand_mirrors (hs : a.Shift) (hE : Recharted a env env') (mu : ℕ) (l : List (Ind D)) :
    Mirrors a env env' a.pt (mutateRand mu l) (mutateRand mu (l.map (Ind.move a))) := by
  refine .step hE .int fun i => ?_
  rw [List.getElem?_map]
  cases l[i]? with
  | none => exact .throw
  | some c => exact .bind' (mutate_mirrors hs hE _ _) fun y => .repair hE

omit [Arith] [ExactOps] in
theorem newInd_mirrors (hE : Recharted a env env') (x : Vec D) (b : Bool) : Mirrors a env env' (Ind.move a) (newInd x b) (newInd (a.pt x) b) :=
  .bind' (.repair hE) fun x => .bind' (.eval hE) fun f => .pure' rfl

def StL.move (a : Chart D) (s : StL D) : StL D := ⟨s.pop.map (Ind.move a), s.ki⟩

omit [ExactOps] in
theorem adaptL_move (p : Par) (n : ℕ) (s : StL D) : adaptL p n (s.move a) = (adaptL p n s).move a := by
  unfold adaptL
  split
  · refine congrArg (StL.mk · 0) ?_
    change updateRhos p (s.pop.map (Ind.move a)) s.ki = (updateRhos p s.pop s.ki).map (Ind.move a)
    unfold updateRhos
    by_cases h1 : Fl.ofNat s.ki / Fl.ofNat p.k < lit 1 5
    · simp only [h1, if_true, List.map_map, Function.comp_def, Ind.move]
    · by_cases h2 : lit 1 5 < Fl.ofNat s.ki / Fl.ofNat p.k
      · simp only [h1, h2, if_true, if_false, List.map_map, Function.comp_def, Ind.move]
      · simp only [h1, h2, if_false]
  · rfl

omit [Arith] [ExactOps] in
theorem beq_move (e o : Indiv D) : Indiv.beq (e.move a) (o.move a) = Indiv.beq e o := by
  have h := RS.same_move (a := a) e.x o.x
  unfold RS.same at h
  unfold Indiv.beq
  exact congrArg (· && _) h

omit [Arith] [ExactOps] in
theorem changeCount_move (c : List (Ind D)) (cn : List (Ind D × Bool)) :
    changeCount (c.map (Ind.move a)) (cn.map fun e => (e.1.move a, e.2)) = changeCount c cn := by
  unfold changeCount
  rw [List.filter_map, List.length_map]
  congr 2
  funext e
  simp only [Function.comp_apply, List.any_map]
  congr 2
  congr 1
  funext o
  exact beq_move ⟨e.1.x, e.1.f⟩ ⟨o.x, o.f⟩

omit [Arith] [ExactOps] in
theorem initL_mirrors (hE : Recharted a env env') (opt : OptType) (B : Box D) (mu : ℕ) :
    Mirrors a env env' (StL.move a) (initL opt B mu) (initL opt (B.move a) mu) :=
  .bind' (.defaultIndividualInit hE) fun r => .pure' (by simp only [StL.move, List.map_ofFn]; rfl)

omit [Arith] [ExactOps] in
theorem getBest_inds {l : List (Ind D)} {xb : Vec D} {fxb : Fl} :
    Mirrors a env env' a.sol (Prog.getBest (l.map (·.x)) (l.map (·.f)) xb fxb)
      (Prog.getBest ((l.map (Ind.move a)).map (·.x)) ((l.map (Ind.move a)).map (·.f)) (a.pt xb) fxb) := by
  have h2 : (l.map (Ind.move a)).map (·.f) = l.map (·.f) := by simp [List.map_map, Function.comp_def, Ind.move]
  rw [h2]
  exact .getBest (by simp [List.map_map, Function.comp_def, Ind.move])

theorem iterL_mirrors (hs : a.Shift) (hE : Recharted a env env') (p : Par) (lam : ℕ) (s : StL D) (xb : Vec D) (fxb : Fl) :
    Mirrors a env env' (fun r => (r.1.move a, a.sol r.2)) (iterL p lam s xb fxb) (iterL p lam (s.move a) (a.pt xb) fxb) := by
  refine .step hE .look fun v => .ite Iff.rfl (fun _ => .throw) fun _ => ?_
  simp only [adaptL_move]
  refine .bind' (.mapMS fun _ _ => .bind' (mutateRand_mirrors hs hE _ _) fun y => newInd_mirrors hE y true) fun cn => ?_
  refine .bind' (φ := List.map fun e : Ind D × Bool => (e.1.move a, e.2)) ?_ fun cn => ?_
  · have : (cn.map (Ind.move a)).map (·, false) ++ ((adaptL p v.iters s).move a).pop.map (·, true) =
        (cn.map (·, false) ++ (adaptL p v.iters s).pop.map (·, true)).map fun e : Ind D × Bool => (e.1.move a, e.2) := by
      simp [StL.move, List.map_map, Function.comp_def]
    rw [this]
    exact .sortRecs (val := fun e : Ind D × Bool => e.1.f) (val' := fun e : Ind D × Bool => e.1.f) (φ := fun e : Ind D × Bool => (e.1.move a, e.2)) hE fun r => rfl
  · have h1 : ((cn.map fun e : Ind D × Bool => (e.1.move a, e.2)).take p.mu).map (·.1) = ((cn.take p.mu).map (·.1)).map (Ind.move a) := by
      simp [← List.map_take, List.map_map, Function.comp_def]
    have h2 : changeCount ((adaptL p v.iters s).move a).pop ((cn.map fun e : Ind D × Bool => (e.1.move a, e.2)).take p.mu) =
        changeCount (adaptL p v.iters s).pop (cn.take p.mu) := by
      rw [← List.map_take]
      exact changeCount_move _ _
    simp only [h1, h2]
    exact .bind' getBest_inds fun b => .pure' rfl

/-- If only the origin is moved. -/
theorem C98_esL (hs : a.Shift) (opt : OptType) (B : Box D) (p : Par) (lam : ℕ) : Carries a (algL opt B p lam) (algL opt (B.move a) p lam) (StL.move a) where
  pop s := map_x _
  fit s := map_f _
  init env env' hE := initL_mirrors hE opt B p.mu
  iter env env' hE s xb fxb := iterL_mirrors hs hE p lam s xb fxb

omit [Arith] [ExactOps] in
theorem newPop_mirrors (hE : Recharted a env env') (mu lam : ℕ) (l : List (Ind D)) :
    Mirrors a env env' (List.map (Ind.move a)) (newPop mu lam l) (newPop mu lam (l.map (Ind.move a))) := by
  refine .bind' (.sortRecs (val := fun e : Ind D => e.f) (val' := fun e : Ind D => e.f) (φ := Ind.move a) hE fun r => rfl) fun r => .ite Iff.rfl (fun _ => .pure' (List.map_take ..).symm) fun _ => .ite Iff.rfl (fun _ => .throw) fun _ => .pure' ?_
  simp only [← List.map_take, List.map_flatMap]

theorem iterM_mirrors (hs : a.Shift) (hE : Recharted a env env') (mu lam : ℕ) (l : List (Ind D)) (xb : Vec D) (fxb : Fl) :
    Mirrors a env env' (fun r => (r.1.map (Ind.move a), a.sol r.2)) (iterM mu lam l xb fxb) (iterM mu lam (l.map (Ind.move a)) (a.pt xb) fxb) := by
  refine .bind' (.mapMS fun _ _ => .bind' (mutateRand_mirrors hs hE _ _) fun y => newInd_mirrors hE y false) fun cn => .bind' (newPop_mirrors hE mu lam cn) fun l =>
    .bind' getBest_inds fun b => .pure' rfl

/-- If only the origin is moved. -/
theorem C98_esM (hs : a.Shift) (opt : OptType) (B : Box D) (mu lam : ℕ) :
    Carries a (algM opt B mu lam) (algM opt (B.move a) mu lam) (List.map (Ind.move a)) where
  pop s := map_x _
  fit s := map_f _
  init env env' hE := .bind' (initL_mirrors hE opt B mu) fun s => .pure' rfl
  iter env env' hE s xb fxb := iterM_mirrors hs hE mu lam s xb fxb

end ES

/-! ### Gravitational search -/
namespace GSA
variable [Arith] [ExactOps]

def St.move (a : Chart D) (s : St D N) : St D N := ⟨fun i => a.pt (s.pop i), s.fit, s.vel⟩

theorem iter_mirrors (hs : a.Shift) (hE : Recharted a env env') (p : Par) (s : St D N) (xb : Vec D) (fxb : Fl) :
    Mirrors a env env' (fun r => (r.1.move a, a.sol r.2)) (iter p s xb fxb) (iter p (s.move a) (a.pt xb) fxb) := by
  refine .step hE .argminRec fun best => .step hE .argminRec fun worst => .step hE .look fun v => .step hE (by numb) fun u => .step hE (by numb) fun w => ?_
  have hd : ∀ (i j : Fin N) (d : Fin D), a.pt (s.pop j) d - a.pt (s.pop i) d = s.pop j d - s.pop i d := fun i j d => by
    simp only [Chart.pt, hs d, Fl.shift_sub]
  simp only [St.move, euclid_shift hs, hd]
  exact .bind' (.repairRows hE fun i => by shift hs) fun pop => .bind' (.evalRows hE) fun fit => .bind' .getBestRows fun b => .pure' rfl

/-- If only the origin is moved. -/
theorem C98_gsa (hs : a.Shift) (B : Box D) (N : ℕ) (p : Par) : Carries a (alg B N p) (alg (B.move a) N p) (St.move a) where
  pop s := ofFn_move _
  fit s := rfl
  init env env' hE := .bind' (.defaultNumpyInit hE) fun r => .pure' rfl
  iter env env' hE s xb fxb := iter_mirrors hs hE p s xb fxb

end GSA

/-! ### Glowworm swarm optimization -/
namespace GSO
variable [Arith] [ExactOps]

def St.move (a : Chart D) (s : St D N) : St D N := ⟨fun i => a.pt (s.pop i), s.fit, s.luc, s.ranges⟩

theorem sensing_shift (hs : a.Shift) (B : Box D) : sensing (B.move a) = sensing B := by
  unfold sensing
  congr 1
  funext d
  simp only [Box.move, Chart.pt, hs d, Fl.shift_sub]

omit [ExactOps] in
theorem moveSelect_numb (pb : Fl) : (moveSelect pb : Prog (Vec D) (Fin N)).Numb := by
  unfold moveSelect
  refine .bind' .rand fun r => ?_
  split <;> numb

/-- The distance does not depend on the origin. -/
def MovesDist (a : Chart D) (d : Vec D → Vec D → Fl) : Prop := ∀ x y, d (a.pt x) (a.pt y) = d x y

theorem iter_mirrors (hs : a.Shift) (hE : Recharted a env env') (B : Box D) {p : Par D} (hp : MovesDist a p.distance) (s : St D N) (xb : Vec D) (fxb : Fl) :
    Mirrors a env env' (fun r => (r.1.move a, a.sol r.2)) (iter B p s xb fxb) (iter (B.move a) p (s.move a) (a.pt xb) fxb) := by
  have hn : ∀ luc r (i : Fin N), neighbors p (fun i => a.pt (s.pop i)) luc r i = neighbors p s.pop luc r i := fun luc r i => by
    funext j
    have := hp (s.pop i) (s.pop j)
    simp only [neighbors, this]
  unfold iter
  simp only [sensing_shift hs, St.move, hn]
  refine .step hE (.tabM fun _ => moveSelect_numb _) fun j => .bind' (.tabM fun i => .repair hE ?_) fun pop => .bind' (.evalRows hE) fun fit =>
    .bind' .getBestRows fun b => .pure' rfl
  rw [hp (s.pop (j i)) (s.pop i)]
  shift hs

/-- If only the origin is moved. -/
theorem C98_gso (hs : a.Shift) (B : Box D) (N : ℕ) {p : Par D} (hp : MovesDist a p.distance) : Carries a (alg B N p) (alg (B.move a) N p) (St.move a) where
  pop s := ofFn_move _
  fit s := rfl
  init env env' hE := .bind' (.defaultNumpyInit hE) fun r => .pure' (by simp only [sensing_shift hs]; rfl)
  iter env env' hE s xb fxb := iter_mirrors hs hE B hp s xb fxb

end GSO

/-! ### Bees algorithm -/
namespace BEA
variable [Arith] [ExactOps]

def St.move (a : Chart D) (s : St D N) : St D N := ⟨fun i => a.pt (s.pop i), s.fit, s.ngh⟩

theorem Mirrors.rangeLoop {σ τ : Type} {φ : σ → τ} {n m m' : ℕ} {f : Fin n → σ → Prog (Vec D) σ} {k : Fin n → τ → Prog (Vec D) τ} {s : σ}
    (h : ∀ i s, Mirrors a env env' φ (f i s) (k i (φ s))) : Mirrors a env env' φ (NiaPy.rangeLoop n m m' f s) (NiaPy.rangeLoop n m m' k (φ s)) := by
  refine .forFin fun i s => ?_
  split
  · exact h _ s
  · exact .throw

omit [Arith] [ExactOps] in
theorem sorted_mirrors (hE : Recharted a env env') (s : St D N) : Mirrors a env env' (St.move a) (sorted s) (sorted (s.move a)) :=
  .step hE .sortIdx fun si => .pure' rfl

theorem beeDance_mirrors (hs : a.Shift) (hE : Recharted a env env') (x : Vec D) (ngh : Fl) : Mirrors a env env' a.sol (beeDance x ngh) (beeDance (a.pt x) ngh) := by
  refine .step hE .intFin fun j => .step hE .unif fun u => .bind' (.repair hE ?_) fun y => .bind' (.eval hE) fun v => .pure' rfl
  funext d
  by_cases h : d = j
  · subst h
    simp only [Function.update_self, Chart.pt, hs d, Fl.shift_add]
  · simp only [Function.update_of_ne h, Chart.pt]

theorem site_mirrors (hs : a.Shift) (hE : Recharted a env env') (n : ℕ) (i : Fin N) (s : St D N) :
    Mirrors a env env' (St.move a) (site n i s) (site n i (s.move a)) := by
  refine .bind' (φ := fun b : Option (Vec D) × Fl => (b.1.map a.pt, b.2)) (.forFin fun _ b => .bind' (beeDance_mirrors hs hE _ _) fun r => .pure' ?_) fun b => ?_
  · by_cases h : r.2 < b.2
    · rw [if_pos h, if_pos h]
      rfl
    · rw [if_neg h, if_neg h]
  · obtain ⟨bp, bc⟩ := b
    refine .ite Iff.rfl (fun _ => ?_) fun _ => .pure' rfl
    cases bp with
    | none => exact .throw
    | some y => exact .pure' (by simp only [St.move, update_move])

theorem iter_mirrors (hs : a.Shift) (hE : Recharted a env env') (B : Box D) (p : Par) (s : St D N) (xb : Vec D) (fxb : Fl) :
    Mirrors a env env' (fun r => (r.1.move a, a.sol r.2)) (iter B p s xb fxb) (iter (B.move a) p (s.move a) (a.pt xb) fxb) := by
  refine .bind' (Mirrors.rangeLoop fun i s => site_mirrors hs hE _ i s) fun s => .bind' (Mirrors.rangeLoop fun i s => site_mirrors hs hE _ i s) fun s =>
    .bind' (Mirrors.rangeLoop fun i s => .bind' (.unifVec hE) fun y => .bind' (.eval hE) fun v => .pure' ?_) fun s => .bind' (sorted_mirrors hE s) fun s => ?_
  · simp only [St.move, update_move]
    rfl
  · split
    · exact .pure' rfl
    · exact .throw

/-- If only the origin is moved. -/
theorem C98_bea (hs : a.Shift) (B : Box D) (N : ℕ) (p : Par) : Carries a (alg B N p) (alg (B.move a) N p) (St.move a) where
  pop s := ofFn_move _
  fit s := rfl
  init env env' hE := .bind' (.defaultNumpyInit hE) fun r => sorted_mirrors hE _
  iter env env' hE s xb fxb := iter_mirrors hs hE B p s xb fxb

end BEA

/-! ### Clonal selection -/
namespace CLONALG
variable {b : ℕ} [Arith] [ExactOps]

def Ab.move (a : Chart D) (e : Ab D b) : Ab D b := ⟨e.bits, a.pt e.x, e.f⟩

omit [Arith] [ExactOps] in
theorem map_x (l : List (Ab D b)) : (l.map (Ab.move a)).map (·.x) = (l.map (·.x)).map a.pt := by simp [List.map_map, Function.comp_def, Ab.move]
omit [Arith] [ExactOps] in
theorem map_f (l : List (Ab D b)) : (l.map (Ab.move a)).map (·.f) = l.map (·.f) := by simp [List.map_map, Function.comp_def, Ab.move]

theorem decode_move (B : Box D) (w : Bits D b) : decode (B.move a) w = a.pt (decode B w) := by
  unfold decode decode1 Box.move
  chart a

theorem evaluate_mirrors (hE : Recharted a env env') (B : Box D) (l : List (Bits D b)) :
    Mirrors a env env' (List.map (Ab.move a)) (evaluate B l) (evaluate (B.move a) l) := by
  refine .bind' (φ := id) ?_ fun r => .pure' ?_
  · unfold evalKeep
    refine .ite Iff.rfl (fun _ => .throw) fun _ => ?_
    have := Mirrors.mapMS (a := a) (env := env) (env' := env') (φ := id) (l := l) (f := fun x => do let v ← Prog.eval (decode B x); return (x, v))
      (k := fun x => do let v ← Prog.eval (decode (B.move a) x); return (x, v)) fun x _ => .bind' (.eval hE (decode_move B x)) fun v => .pure' rfl
    rwa [List.map_id_fun] at this
  · simp [List.map_map, Function.comp_def, Ab.move, decode_move]

omit [Arith] [ExactOps] in
theorem select_mirrors (hE : Recharted a env env') (N : ℕ) (l : List (Ab D b)) :
    Mirrors a env env' (List.map (Ab.move a)) (select N l) (select N (l.map (Ab.move a))) :=
  .bind' (.sortRecs (val := fun e : Ab D b => e.f) (val' := fun e : Ab D b => e.f) (φ := Ab.move a) hE fun r => rfl) fun r => .pure' (List.map_take ..).symm

theorem clone_mirrors (hE : Recharted a env env') (B : Box D) (N : ℕ) (p : Par) (s : List (Ab D b)) :
    Mirrors a env env' (List.map (Ab.move a)) (cloneAndHypermutate B N p s) (cloneAndHypermutate (B.move a) N p (s.map (Ab.move a))) := by
  refine .bind' (φ := List.map id) ?_ fun cl => .bind' (φ := List.map (Ab.move a)) ?_ fun new => ?_
  · rw [show (s.map (Ab.move a)).flatMap (fun e => List.replicate p.numClones e) = (s.flatMap fun e => List.replicate p.numClones e).map (Ab.move a) by
      rw [List.map_flatMap, List.flatMap_map]
      congr 1
      funext e
      rw [List.map_replicate]]
    exact .mapM' fun e => .numb hE (by unfold mutate; numb)
  · rw [List.map_id]
    exact evaluate_mirrors hE B cl
  · rw [← List.map_append]
    exact select_mirrors hE N _

omit [ExactOps] in
theorem randomBits_numb (n : ℕ) : (randomBits n : Prog (Vec D) (List (Bits D b))).Numb := by unfold randomBits; numb

theorem insertion_mirrors (hE : Recharted a env env') (B : Box D) (N : ℕ) (p : Par) (s : List (Ab D b)) :
    Mirrors a env env' (List.map (Ab.move a)) (randomInsertion B N p s) (randomInsertion (B.move a) N p (s.map (Ab.move a))) := by
  refine .ite Iff.rfl (fun _ => .pure' rfl) fun _ => .step hE (randomBits_numb _) fun bits => .bind' (evaluate_mirrors hE B bits) fun new => ?_
  rw [← List.map_append]
  exact select_mirrors hE N _

omit [Arith] [ExactOps] in
theorem best_mirrors {l : List (Ab D b)} {xb : Vec D} {fxb : Fl} :
    Mirrors a env env' a.sol (Prog.getBest (l.map (·.x)) (l.map (·.f)) xb fxb)
      (Prog.getBest ((l.map (Ab.move a)).map (·.x)) ((l.map (Ab.move a)).map (·.f)) (a.pt xb) fxb) := by
  have h2 : (l.map (Ab.move a)).map (·.f) = l.map (·.f) := by simp [List.map_map, Function.comp_def, Ab.move]
  rw [h2]
  exact .getBest (by simp [List.map_map, Function.comp_def, Ab.move])

theorem C98_clonalg (B : Box D) (b N : ℕ) (p : Par) : Carries a (alg B b N p) (alg (B.move a) b N p) (List.map (Ab.move a)) where
  pop s := map_x _
  fit s := map_f _
  init env env' hE := .step hE (randomBits_numb _) fun bits => evaluate_mirrors hE B bits
  iter env env' hE s xb fxb := .bind' (clone_mirrors hE B N p s) fun s => .bind' best_mirrors fun b => .bind' (insertion_mirrors hE B N p s) fun s =>
    .bind' best_mirrors fun b => .pure' rfl

end CLONALG

/-! ### Grey wolf optimizer -/
namespace GWO
variable [Arith] [ExactOps]

def Leaders.move (a : Chart D) (l : Leaders D) : Leaders D := ⟨a.pt l.alpha, l.alphaF, a.pt l.beta, l.betaF, a.pt l.delta, l.deltaF⟩
def St.move (a : Chart D) (s : St D N) : St D N := ⟨fun i => a.pt (s.pop i), s.fit, s.lead.move a⟩

theorem units_pt (hu : a.Units) (x : Vec D) : a.pt x = a.dir x := by
  funext j
  simp only [Chart.pt, Chart.dir, hu j]

theorem approach_mirrors (hu : a.Units) (hE : Recharted a env env') (k : Fl) (x w : Vec D) :
    Mirrors a env env' a.pt (approach k x w) (approach k (a.pt x) (a.pt w)) := by
  refine .step hE .randVec fun r => .step hE .randVec fun r' => .pure' ?_
  simp only [units_pt hu]
  chart a

theorem move_mirrors (hu : a.Units) (hE : Recharted a env env') (k : Fl) (l : Leaders D) (w : Vec D) :
    Mirrors a env env' a.pt (move k l w) (move k (l.move a) (a.pt w)) := by
  refine .bind' (approach_mirrors hu hE k _ w) fun x => .bind' (approach_mirrors hu hE k _ w) fun y => .bind' (approach_mirrors hu hE k _ w) fun z => .repair hE ?_
  simp only [units_pt hu]
  chart a

omit [Arith] [ExactOps] in
theorem update_lead (l : Leaders D) (e : Vec D × Fl) : (l.move a).update (a.sol e) = (l.update e).move a := by
  unfold Leaders.update
  by_cases h1 : e.2 < l.alphaF
  · rw [if_pos h1, if_pos (show (a.sol e).2 < (l.move a).alphaF from h1)]; rfl
  rw [if_neg h1, if_neg (show ¬ (a.sol e).2 < (l.move a).alphaF from h1)]
  by_cases h2 : l.alphaF < e.2 ∧ e.2 < l.betaF
  · rw [if_pos h2, if_pos (show (l.move a).alphaF < (a.sol e).2 ∧ (a.sol e).2 < (l.move a).betaF from h2)]; rfl
  rw [if_neg h2, if_neg (show ¬ ((l.move a).alphaF < (a.sol e).2 ∧ (a.sol e).2 < (l.move a).betaF) from h2)]
  by_cases h3 : l.betaF < e.2 ∧ e.2 < l.deltaF
  · rw [if_pos h3, if_pos (show (l.move a).betaF < (a.sol e).2 ∧ (a.sol e).2 < (l.move a).deltaF from h3)]; rfl
  rw [if_neg h3, if_neg (show ¬ ((l.move a).betaF < (a.sol e).2 ∧ (a.sol e).2 < (l.move a).deltaF) from h3)]

omit [Arith] [ExactOps] in
theorem scan_lead (l : Leaders D) (pop : Fin N → Vec D) (fit : Fin N → Fl) :
    (l.move a).scan (fun i => a.pt (pop i)) fit = (l.scan pop fit).move a := by
  have key : ∀ (es : List (Vec D × Fl)) (l : Leaders D), (es.map a.sol).foldl Leaders.update (l.move a) = (es.foldl Leaders.update l).move a := by
    intro es
    induction es with
    | nil => intro l; rfl
    | cons e es ih => intro l; simp only [List.map_cons, List.foldl_cons, update_lead, ih]
  have := key (List.ofFn fun i => (pop i, fit i)) l
  rwa [List.map_ofFn] at this

theorem iter_mirrors (hu : a.Units) (hE : Recharted a env env') (s : St D N) (xb : Vec D) (fxb : Fl) :
    Mirrors a env env' (fun r => (r.1.move a, a.sol r.2)) (iter s xb fxb) (iter (s.move a) (a.pt xb) fxb) := by
  refine .step hE .look fun v => .bind' (.moveEval hE fun i => move_mirrors hu hE _ s.lead _) fun r => .pure' ?_
  have h := scan_lead (a := a) s.lead (fun i => (r i).1) fun i => (r i).2
  change (St.mk _ _ ((s.lead.move a).scan (fun i => a.pt (r i).1) fun i => (r i).2), getBest1 ((s.lead.move a).scan (fun i => a.pt (r i).1) fun i => (r i).2).alpha
    ((s.lead.move a).scan (fun i => a.pt (r i).1) fun i => (r i).2).alphaF (a.pt xb) fxb) = _
  rw [h]
  exact Prod.ext rfl (getBest1_move ..)

/-- If only the units are changed. -/
theorem C98_gwo (hu : a.Units) (B : Box D) (N : ℕ) : Carries a (alg B N) (alg (B.move a) N) (St.move a) where
  pop s := ofFn_move _
  fit s := rfl
  init env env' hE := by
    refine .bind' (.defaultNumpyInit hE) fun r => .step hE .sortIdx fun si => ?_
    split
    · exact .pure' rfl
    · exact .throw
  iter env env' hE s xb fxb := iter_mirrors hu hE s xb fxb

end GWO

/-! ### Sine cosine algorithm -/
namespace SCA
variable [Arith] [ExactOps]

def St.move (a : Chart D) (s : St D N) : St D N := ⟨fun i => a.pt (s.pop i), s.fit⟩

/-- If only the units are changed. -/
theorem C98_sca (hu : a.Units) (B : Box D) (N : ℕ) (p : Par) : Carries a (alg B N p) (alg (B.move a) N p) (St.move a) where
  pop s := ofFn_move _
  fit s := rfl
  init env env' hE := .bind' (.defaultNumpyInit hE) fun r => .pure' rfl
  iter env env' hE s xb fxb := .step hE .look fun v => .step hE .unif fun r2 => .step hE .unif fun r3 => .step hE .rand fun r4 =>
    .bind' (.repairRows hE fun i => by
      unfold moved St.move
      simp only [GWO.units_pt hu]
      chart a) fun pop => .bind' (.evalRows hE) fun fit => .bind' .getBestRows fun b => .pure' rfl

end SCA

/-! ### Variants of the bat algorithm -/
namespace BAT
variable [Arith] [ExactOps]

def St.move (a : Chart D) (s : St D N) : St D N := ⟨fun i => a.pt (s.pop i), s.fit, s.vel, s.loud, s.pulse⟩

omit [Arith] [ExactOps] in
theorem judge_mirrors (hE : Recharted a env env') (pop : Fin N → Vec D) (fit : Fin N → Fl) (i : Fin N) (ok : Fl → Bool) (y : Vec D) :
    Mirrors a env env' (fun r => (fun i => a.pt (r.1 i), r.2)) (judge pop fit i ok y) (judge (fun i => a.pt (pop i)) fit i ok (a.pt y)) := by
  refine .bind' (.eval hE) fun v => .bind' (φ := id) (.ite Iff.rfl (fun _ => .numb hE (by numb)) fun _ => .pure' rfl) fun accept => .pure' ?_
  cases accept
  · rfl
  · simp only [id, if_true, update_move]

/-- The local search in the new variables. -/
def MovesLocal (a : Chart D) (ls : Local D N) : Prop := ∀ env env', Recharted a env env' → ∀ best l i pop,
  Mirrors a env env' a.pt (ls best l i pop) (ls (a.pt best) l i fun i => a.pt (pop i))

theorem MovesLocal.std (hs : a.Shift) (p : Par) : MovesLocal a (localSearch (D := D) (N := N) p) := fun env env' hE best l i pop =>
  .step hE .normVec fun z => .repair hE (by shift hs)

omit [ExactOps] in
theorem MovesLocal.de {strat : DE.Strategy D} (h : DE.Moves a strat) (f cr : Fl) : MovesLocal a (localS (N := N) strat f cr) := fun env env' hE best l i pop =>
  .bind' (h env env' hE pop i f cr best) fun y => .repair hE

theorem candidate_mirrors (hs : a.Shift) (hE : Recharted a env env') {ls : Local D N} (hl : MovesLocal a ls) (best : Vec D) (pop : Fin N → Vec D) (i : Fin N) (vi : Vec D)
    (l pr : Fl) : Mirrors a env env' a.pt (candidate ls best pop i vi l pr) (candidate ls (a.pt best) (fun i => a.pt (pop i)) i vi l pr) :=
  .step hE .rand fun r => .ite Iff.rfl (fun _ => hl env env' hE best l i pop) fun _ => .repair hE (by shift hs)

theorem vel_shift (hs : a.Shift) (v x xb : Vec D) (f : Fl) : (fun j => v j + (a.pt x j - a.pt xb j) * f) = fun j => v j + (x j - xb j) * f := by shift hs

def mv (a : Chart D) (r : St D N × Vec D × Fl) : St D N × Vec D × Fl := (r.1.move a, a.sol r.2)

theorem step_mirrors (hs : a.Shift) (hE : Recharted a env env') (p : Par) (i : Fin N) (r : St D N × Vec D × Fl) :
    Mirrors a env env' (mv a) (step p i r) (step p i (mv a r)) := by
  obtain ⟨s, xb, fxb⟩ := r
  unfold step mv
  refine .step hE .rand fun u => ?_
  simp only [St.move, Chart.sol, vel_shift hs]
  refine .bind' (candidate_mirrors hs hE (.std hs p) xb s.pop i _ _ _) fun y => .bind' (judge_mirrors hE s.pop s.fit i _ y) fun r => .pure' ?_
  rw [getBest1_move]
  rfl

/-- If only the origin is moved. -/
theorem C98_bat (hs : a.Shift) (B : Box D) (N : ℕ) (p : Par) : Carries a (alg B N p) (alg (B.move a) N p) (St.move a) where
  pop s := ofFn_move _
  fit s := rfl
  init env env' hE := .bind' (.defaultNumpyInit hE) fun r => .pure' rfl
  iter env env' hE s xb fxb := .forFin (φ := mv a) (s := (s, xb, fxb)) fun i r => step_mirrors hs hE p i r

theorem stepS_mirrors (hs : a.Shift) (hE : Recharted a env env') (p : Par) (q : Self) {ls : Local D N} (hl : MovesLocal a ls) (i : Fin N) (r : St D N × Vec D × Fl) :
    Mirrors a env env' (mv a) (stepS p q ls i r) (stepS p q ls i (mv a r)) := by
  obtain ⟨s, xb, fxb⟩ := r
  unfold stepS mv
  refine .step hE (by unfold adapt; numb) fun l => .step hE (by unfold adapt; numb) fun pr => .step hE .rand fun u => ?_
  simp only [St.move, Chart.sol, vel_shift hs]
  refine .bind' (candidate_mirrors hs hE hl xb s.pop i _ _ _) fun y => .bind' (judge_mirrors hE s.pop s.fit i _ y) fun r => .pure' ?_
  rw [getBest1_move]
  rfl

theorem C98_mkS (hs : a.Shift) (B : Box D) (N : ℕ) (p : Par) (q : Self) {ls : Local D N} (hl : MovesLocal a ls) :
    Carries a (mkS B N p q ls) (mkS (B.move a) N p q ls) (St.move a) where
  pop s := ofFn_move _
  fit s := rfl
  init env env' hE := .bind' (.defaultNumpyInit hE) fun r => .pure' rfl
  iter env env' hE s xb fxb := .forFin (φ := mv a) (s := (s, xb, fxb)) fun i r => stepS_mirrors hs hE p q hl i r

/-- If only the origin is moved. -/
theorem C98_batS (hs : a.Shift) (B : Box D) (N : ℕ) (p : Par) (q : Self) : Carries a (algS B N p q) (algS (B.move a) N p q) (St.move a) := C98_mkS hs B N p q (.std hs p)

/-- If only the origin is moved. -/
theorem C98_batHS (hs : a.Shift) (B : Box D) (N : ℕ) (p : Par) (q : Self) {strat : DE.Strategy D} (h : DE.Moves a strat) (f cr : Fl) :
    Carries a (algHS B N p q strat f cr) (algHS (B.move a) N p q strat f cr) (St.move a) := C98_mkS hs B N p q (.de h f cr)

theorem stepH_mirrors (hs : a.Shift) (hE : Recharted a env env') (p : BA.Par) {c : Callee D} (hc : DE.Moves a c.run) (f cr l pr : Fl) (i : Fin N)
    (r : BA.St D N × Vec D × Fl) :
    Mirrors a env env' (fun r : BA.St D N × Vec D × Fl => (r.1.move a, a.sol r.2)) (stepH p c f cr l pr i r) (stepH p c f cr l pr i (r.1.move a, a.sol r.2)) := by
  obtain ⟨s, xb, fxb⟩ := r
  unfold stepH
  refine .step hE .rand fun u => ?_
  simp only [BA.St.move, Chart.sol, vel_shift hs]
  refine .bind' (φ := a.pt) (.step hE .rand fun r => .ite Iff.rfl (fun _ => .bind' (φ := a.pt) (.ite Iff.rfl (fun _ => hc env env' hE s.pop i f cr xb) fun _ => .throw) fun y =>
    .repair hE) fun _ => .repair hE (by shift hs)) fun y => .bind' (judge_mirrors hE s.pop s.fit i _ y) fun r => .pure' ?_
  rw [getBest1_move]
  rfl

/-- If only the origin is moved. -/
theorem C98_batH (hs : a.Shift) (B : Box D) (N : ℕ) (p : BA.Par) {c : Callee D} (hc : DE.Moves a c.run) (f cr : Fl) :
    Carries a (algH B N p c f cr) (algH (B.move a) N p c f cr) (BA.St.move a) where
  pop s := ofFn_move _
  fit s := rfl
  init env env' hE := .bind' (.defaultNumpyInit hE) fun r => .pure' rfl
  iter env env' hE s xb fxb := .step hE .look fun v => .bind' (.forFin (φ := fun r : BA.St D N × Vec D × Fl => (r.1.move a, a.sol r.2)) (s := (s, xb, fxb)) fun i r =>
    stepH_mirrors hs hE p hc f cr _ _ i r) fun r => .pure' rfl

def StP.move (a : Chart D) (s : StP D N) : StP D N := ⟨fun i => a.pt (s.pop i), s.fit, s.vel⟩

theorem stepP_mirrors (hs : a.Shift) (hE : Recharted a env env') (B : Box D) (i : Fin N) (r : StP D N × Vec D × Fl) :
    Mirrors a env env' (fun r : StP D N × Vec D × Fl => (r.1.move a, a.sol r.2)) (stepP B i r) (stepP (B.move a) i (r.1.move a, a.sol r.2)) := by
  obtain ⟨s, xb, fxb⟩ := r
  unfold stepP
  have hw : width (B.move a) = width B := by
    unfold width
    split
    · simp only [Box.move, Chart.pt, hs _, Fl.shift_sub]
    · rfl
  rw [hw]
  refine .step hE (by unfold width; split <;> numb) fun w => .step hE .norm fun z => ?_
  simp only [StP.move, Chart.sol, vel_shift hs]
  refine .bind' (φ := a.pt) (.step hE .rand fun r => .ite Iff.rfl (fun _ => .step hE .normVec fun z => .repair hE (by shift hs)) fun _ => .repair hE (by shift hs)) fun y =>
    .bind' (judge_mirrors hE s.pop s.fit i _ y) fun r => .pure' ?_
  rw [getBest1_move]
  rfl

/-- If only the origin is moved. -/
theorem C98_batP (hs : a.Shift) (B : Box D) (N : ℕ) : Carries a (algP B N) (algP (B.move a) N) (StP.move a) where
  pop s := ofFn_move _
  fit s := rfl
  init env env' hE := .bind' (.defaultNumpyInit hE) fun r => .pure' rfl
  iter env env' hE s xb fxb := .forFin (φ := fun r : StP D N × Vec D × Fl => (r.1.move a, a.sol r.2)) (s := (s, xb, fxb)) fun i r => stepP_mirrors hs hE B i r

end BAT

/-! ### Comprehensive learning particle swarm -/
namespace PSO
variable [Arith] [ExactOps]

def CSt.remap (a : Chart D) (s : CSt D N) : CSt D N := ⟨s.sw.remap a, s.flag⟩

def mvC (a : Chart D) (r : CSt D N × Vec D × Fl) : CSt D N × Vec D × Fl := (r.1.remap a, a.sol r.2)

omit [Arith] [ExactOps] in
theorem par_shift (hs : a.Shift) (p : Par D) : p.move a = p := by simp only [Par.move, hs.dir]

theorem refresh_mirrors (hs : a.Shift) (hE : Recharted a env env') (p : CPar D) (i : Fin N) (r : CSt D N × Vec D × Fl) :
    Mirrors a env env' (mvC a) (refresh p i r) (refresh p i (mvC a r)) := by
  refine .ite Iff.rfl (fun _ => ?_) fun _ => .pure' rfl
  have hv := MovesVel.vel (.shift hs p.base.rep) (p := p.base) (fun _ => Fl.ofNat 1) p.base.vmin p.base.vmax
  rw [par_shift hs, hs.dir, hs.dir] at hv
  exact .bind' (particle_mirrors hE hv true i (r.1.sw, r.2)) fun r => .pure' rfl

omit [ExactOps] in
theorem exemplar_mirrors (hE : Recharted a env env') (s : St D N) (i : Fin N) : Mirrors a env env' a.pt (exemplar s i) (exemplar (s.remap a) i) := by
  refine .tabMD (φ := fun d => Fl.aff (a.s d) (a.c d)) fun d => .step hE .rand fun r => .ite Iff.rfl (fun _ => .pure' rfl) fun _ => .step hE ?_ fun r1 => .step hE ?_ fun r2 => .pure' ?_
  · unfold scaleIdx; numb
  · unfold scaleIdx; numb
  · exact (apply_ite (Fl.aff (a.s d) (a.c d)) _ _ _).symm

omit [Arith] [ExactOps] in
theorem feasible_move (B : Box D) (x : Vec D) : isFeasible (B.move a) (a.pt x) = isFeasible B x := by
  unfold isFeasible
  congr 1
  funext j
  simp only [Box.move, Chart.pt, Fl.aff_le (a.pos j)]

theorem learn_mirrors (hs : a.Shift) (hE : Recharted a env env') (B : Box D) (p : CPar D) (w : Fl) (i : Fin N) (r : CSt D N × Vec D × Fl) :
    Mirrors a env env' (mvC a) (learnCl B p w i r) (learnCl (B.move a) p w i (mvC a r)) := by
  obtain ⟨s, xb, fxb⟩ := r
  refine .bind' (exemplar_mirrors hE s.sw i) fun pb => .bind' (φ := id) (.step hE .randVec fun u => .pure' ?_) fun v => ?_
  · change _ = p.base.rep _ _ _
    congr 1
    simp only [mvC, CSt.remap, St.remap, hs.dir]
    shift hs
  · have hx : (fun j => a.pt (s.sw.pop i) j + v j) = a.pt fun j => s.sw.pop i j + v j := by shift hs
    change Mirrors a env env' (mvC a) _ (if isFeasible (B.move a) (fun j => a.pt (s.sw.pop i) j + v j) then _ else _)
    rw [hx, feasible_move]
    refine .ite Iff.rfl (fun _ => .bind' (.eval hE hx) fun f => .pure' ?_) fun _ => .pure' ?_
    · have h1 := record_move (a := a) s.sw i v (fun j => s.sw.pop i j + v j) f
      rw [hs.dir] at h1
      refine Prod.ext ?_ ?_
      · change CSt.mk ((s.sw.remap a).record i v (fun j => a.pt (s.sw.pop i) j + v j) f) _ = _
        rw [hx, h1]
        rfl
      · change global true _ (fun j => a.pt (s.sw.pop i) j + v j) f (a.pt xb) fxb = _
        rw [hx]
        exact global_move ..
    · refine Prod.ext ?_ rfl
      change CSt.mk ((s.sw.remap a).move i v (fun j => a.pt (s.sw.pop i) j + v j)) _ = _
      rw [hx]
      simp only [mvC, CSt.remap, St.remap, St.move, hs.dir, update_move]

/-- If only the origin is moved. -/
theorem C98_clpso (hs : a.Shift) (B : Box D) (N : ℕ) (p : CPar D) : Carries a (algC B N p) (algC (B.move a) N p) (CSt.remap a) where
  pop s := ofFn_move _
  fit s := rfl
  init env env' hE := .bind' (φ := St.remap a) (.bind' (.defaultNumpyInit hE) fun r => .pure' (by
    have : a.dir (fun _ => Fl.fin 0) = fun _ => Fl.fin 0 := by funext j; simp [Chart.dir]
    simp only [St.remap, this])) fun s => .ite Iff.rfl (fun _ => .throw) fun _ => .pure' rfl
  iter env env' hE s xb fxb := .step hE .look fun t => .forFin (φ := mvC a) (s := (s, xb, fxb)) fun i r => .bind' (refresh_mirrors hs hE p i r) fun r => learn_mirrors hs hE B p _ i r

end PSO
end NiaPy
