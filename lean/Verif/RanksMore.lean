import Verif.RanksAlgs
import Verif.Algo.CRO
import Verif.Algo.FOA
import Verif.Algo.MTS
import Verif.Algo.HDE
import Verif.Algo.SA
import Verif.Algo.ABC
import Verif.Algo.GSA
import Verif.Algo.FSS
import Verif.Algo.CLONALG

/-!
# C96 for the algorithms with populations of changing size and for the local searches

Coral reefs optimization, the forest optimization algorithm, multiple trajectory search and the combinations of differential evolution with it. The third local search
(`mts_ls3`, mts.py 213-270) moves by differences of objective values, so it is left out: `Search.ordinal`.
-/

namespace NiaPy
variable {G : Fl → Fl} {D N : ℕ}

theorem Follows.choiceCast {X : Type} {env env' : Env X} (hG : Gauge G) (hE : Rescaled G env env') {n m : ℕ} (h : n = m) (k : ℕ) :
    Follows G env env' (fun (r : Fin k → Fin n) (i : Fin k) => (r i).cast h) (choiceFin n k) (choiceFin m k) := by
  subst h
  exact .blind hG hE .choiceFin

theorem filter_get_map {α β : Type} {φ : α → β} {n m : ℕ} (h : n = m) {P : Fin n → Bool} {P' : Fin m → Bool} (hP : ∀ i, P' (i.cast h) = P i) {a : Fin n → α} {b : Fin m → β}
    (hab : ∀ i, b (i.cast h) = φ (a i)) : ((List.finRange m).filter P').map b = (((List.finRange n).filter P).map a).map φ := by
  subst h
  have e : P' = P := funext hP
  have e2 : b = fun i => φ (a i) := funext hab
  rw [e, e2, List.map_map]
  rfl

theorem map_scale_fst {X : Type} (l : List (X × Fl)) : (l.map (scaleF G)).map (·.1) = l.map (·.1) := by simp [List.map_map, Function.comp_def, scaleF]
theorem map_scale_snd {X : Type} (l : List (X × Fl)) : (l.map (scaleF G)).map (·.2) = (l.map (·.2)).map G := by simp [List.map_map, Function.comp_def, scaleF]

/-! ### Coral reefs optimization -/
namespace CRO
variable [Arith] {env env' : Env (Vec D)}

def St.rescale (G : Fl → Fl) (s : St D) : St D := ⟨s.reef.map (scaleF G), s.flat⟩

/-- A list of corals and the best solution, with fitness transformed. -/
def resc (G : Fl → Fl) (r : List (Vec D × Fl) × Vec D × Fl) : List (Vec D × Fl) × Vec D × Fl := (r.1.map (scaleF G), r.2.1, G r.2.2)

theorem best_follows (hG : Gauge G) (l : List (Vec D × Fl)) (xb : Vec D) (fxb : Fl) :
    Follows G env env' (scaleF G) (Prog.getBest (l.map (·.1)) (l.map (·.2)) xb fxb)
      (Prog.getBest ((l.map (scaleF G)).map (·.1)) ((l.map (scaleF G)).map (·.2)) xb (G fxb)) := by
  rw [map_scale_fst, map_scale_snd]
  exact .getBest hG

theorem brooding_follows (hG : Gauge G) (hE : Rescaled G env env') (B : Box D) (p : Fl) (l : List (Vec D)) :
    Follows G env env' (List.map (scaleF G)) (brooding B p l) (brooding B p l) :=
  .step hG hE (.mapM' fun x => by unfold brood; blind) fun l => .evalRecs hG hE

theorem scatter_rescale (near : Vec D × Fl → Bool) (hn : ∀ e, near (scaleF G e) = near e) (l r : List (Vec D × Fl)) :
    scatter near (l.map (scaleF G)) (r.map (scaleF G)) = (scatter near l r).map (scaleF G) := by
  induction l generalizing r with
  | nil => rfl
  | cons e l ih =>
    simp only [List.map_cons, scatter, hn]
    split
    · cases r with
      | nil => simpa using ih []
      | cons y ys => simp [ih]
    · simp [ih]

theorem update_follows (hG : Gauge G) (hE : Rescaled G env env') (p : Par) (arr : List (Vec D)) (a : List (Vec D × Fl) × Vec D × Fl) :
    Follows G env env' (resc G) (update p arr a) (update p arr (resc G a)) := by
  unfold update
  dsimp only
  generalize hnear : (fun e : Vec D × Fl => arr.any fun y => decide (euclid y e.1 < p.phi)) = near
  have hn : ∀ e, near (scaleF G e) = near e := fun e => by rw [← hnear]; rfl
  refine .ite ?_ (fun _ => ?_) fun _ => .pure' rfl
  · rw [resc, ← List.map_drop, List.any_map]
    simp only [Function.comp_def, hn]
  · have e : (resc G a).1.filter near = (a.1.filter near).map (scaleF G) := by
      rw [resc, List.filter_map]
      simp only [Function.comp_def, hn]
    rw [e]
    refine .bind' (φ := id) ?_ fun moved => .bind' (.evalRecs hG hE) fun r => .bind' (best_follows hG r _ _) fun b => .pure' ?_
    · have := Follows.mapM' (G := G) (env := env) (env' := env') (φ := fun x : Vec D => x) (j := scaleF G) (l := a.1.filter near) (f := fun e => move p.mr p.mr e.1)
        (k := fun e => move p.mr p.mr e.1) fun e => .blind hG hE (by unfold move; blind)
      exact this.mono fun _ => by simp
    · exact Prod.ext (scatter_rescale near hn _ _) rfl

theorem settling_follows (hG : Gauge G) (hE : Rescaled G env env') (p : Par) (reef new : List (Vec D × Fl)) (xb : Vec D) (fxb : Fl) :
    Follows G env env' (resc G) (settling p reef new xb fxb) (settling p (reef.map (scaleF G)) (new.map (scaleF G)) xb (G fxb)) := by
  unfold settling
  rw [map_scale_fst]
  refine .bind' (.forList (φ := resc G) (s := (new, xb, fxb)) fun _ a => .bind' (update_follows hG hE p _ a) fun a => ?_) fun a => .pure' ?_
  · rw [show (resc G a).1.map (·.1) = a.1.map (·.1) from map_scale_fst _]
    exact update_follows hG hE p _ a
  · simp only [resc, List.map_append, List.filter_map, Function.comp_def, List.any_map]
    rfl

theorem asexual_follows (hG : Gauge G) (hE : Rescaled G env env') (B : Box D) (p : Par) (reef : List (Vec D × Fl)) (xb : Vec D) (fxb : Fl) :
    Follows G env env' (resc G) (asexual B p reef xb fxb) (asexual B p (reef.map (scaleF G)) xb (G fxb)) := by
  refine .bind' (.sortRecs hE (val := fun e : Vec D × Fl => e.2) (val' := fun e : Vec D × Fl => e.2) (φ := scaleF G) fun _ => rfl) fun l => ?_
  rw [← List.map_take, map_scale_fst]
  exact .bind' (brooding_follows hG hE B p.mr _) fun new => .bind' (best_follows hG new _ _) fun b => settling_follows hG hE p reef new b.1 b.2

theorem finish_follows (hG : Gauge G) (hE : Rescaled G env env') (p : Par) (reef : List (Vec D × Fl)) :
    Follows G env env' (St.rescale G) (finish p reef) (finish p (reef.map (scaleF G))) := by
  refine .step hG hE .look fun v => .ite Iff.rfl (fun _ => .throw) fun _ => .ite Iff.rfl (fun _ => ?_) fun _ => .pure' rfl
  refine .bind' (φ := List.map (scaleF G)) ?_ fun l => .pure' rfl
  unfold depredation
  rw [map_scale_snd]
  refine .bind' (.argsort hE) fun idx => .pure' ?_
  exact filter_get_map (φ := scaleF G) (List.length_map _).symm (fun _ => rfl) fun i => by simp

theorem C96_cro (B : Box D) (N : ℕ) (p : Par) : Ordinal (alg B N p) St.rescale where
  pop G s := by
    have key : ∀ s : St D, (if (s.rescale G).flat then [] else (s.rescale G).reef.map (·.1)) = if s.flat then [] else s.reef.map (·.1) := fun s => by
      simp only [St.rescale, map_scale_fst]
    exact key s
  fit G s := by
    have key : ∀ s : St D, (s.rescale G).reef.map (·.2) = (s.reef.map (·.2)).map G := fun s => map_scale_snd _
    exact key s
  init G env env' hG hE := .bind' (.defaultNumpyInit hG hE) fun r => .pure' (by simp only [St.rescale, List.map_ofFn]; rfl)
  iter G env env' hG hE := by
    have key : ∀ (s : St D) (xb : Vec D) (fxb : Fl), Follows G env env' (fun r : St D × Vec D × Fl => (r.1.rescale G, r.2.1, G r.2.2)) (iter B p s xb fxb)
        (iter B p (s.rescale G) xb (G fxb)) := ?_
    · exact key
    intro s xb fxb
    have hl : s.reef.length = (s.rescale G).reef.length := (List.length_map _).symm
    refine .ite Iff.rfl (fun _ => .throw) fun _ => .bind' (.choiceCast hG hE hl p.numBroadcast) fun c => ?_
    have e : (fun i => ((s.rescale G).reef.get ((c i).cast hl)).1) = fun i => (s.reef.get (c i)).1 := by
      funext i; simp [St.rescale, scaleF]; rfl
    have e2 : ((List.finRange (s.rescale G).reef.length).filter fun j => ∀ i, (c i).cast hl ≠ j).map
        (fun j => ((s.rescale G).reef.get j).1) = ((List.finRange s.reef.length).filter fun j => ∀ i, c i ≠ j).map fun j => (s.reef.get j).1 := by
      have := filter_get_map (φ := id) hl (P := fun j => decide (∀ i, c i ≠ j))
        (P' := fun j => decide (∀ i, (c i).cast hl ≠ j)) (a := fun j => (s.reef.get j).1)
        (b := fun j => ((s.rescale G).reef.get j).1) (fun i => by simp [Fin.ext_iff]) fun i => by simp [St.rescale, scaleF]; rfl
      rw [List.map_id] at this
      exact this
    dsimp only
    rw [e, e2]
    refine .step hG hE (by unfold crossover; blind) fun cast => .bind' (.evalRecs hG hE) fun cast => .bind' (best_follows hG cast xb fxb) fun b =>
      .bind' (brooding_follows hG hE B p.mr _) fun young => .bind' (best_follows hG young b.1 b.2) fun b => ?_
    rw [← List.map_append]
    exact .bind' (settling_follows hG hE p s.reef _ b.1 b.2) fun a => .bind' (asexual_follows hG hE B p a.1 a.2.1 a.2.2) fun a =>
      .bind' (finish_follows hG hE p a.1) fun s => .pure' rfl

end CRO

/-! ### Forest optimization algorithm -/
namespace FOA
variable [Arith] {env env' : Env (Vec D)}

def Tree.rescale (G : Fl → Fl) (t : Tree D) : Tree D := ⟨t.x, G t.f, t.age⟩

omit [Arith] in
theorem evalTrees_follows (hG : Gauge G) (hE : Rescaled G env env') (l : List (Vec D × ℕ)) :
    Follows G env env' (List.map (Tree.rescale G)) (evalTrees l) (evalTrees l) :=
  .ite Iff.rfl (fun _ => .throw) fun _ => .mapMS fun t => .bind' (.eval hG hE) fun v => .pure' rfl

omit [Arith] in
theorem freshen_rescale (hG : Gauge G) (l : List (Tree D)) : freshen (l.map (Tree.rescale G)) = (freshen l).map (Tree.rescale G) := by
  unfold freshen
  have e : (l.map (Tree.rescale G)).map (·.f) = (l.map (·.f)).map G := by simp [List.map_map, Function.comp_def, Tree.rescale]
  rw [e, argmin_map hG.keeps]
  cases argmin (l.map (·.f)) with
  | error _ => rfl
  | ok k =>
    dsimp only
    induction l generalizing k with
    | nil => simp
    | cons t l ih =>
      cases k with
      | zero => rfl
      | succ k => 
        simp only [List.map_cons, List.modify_succ_cons, List.cons.injEq, true_and]
        exact ih (by simp [List.map_map, Function.comp_def, Tree.rescale]) k

theorem C96_foa (B : Box D) (N : ℕ) (p : Par) : Ordinal (alg B N p) fun G l => l.map (Tree.rescale G) where
  pop G s := by
    have key : ∀ l : List (Tree D), (l.map (Tree.rescale G)).map (·.x) = l.map (·.x) := fun l => by simp [List.map_map, Function.comp_def, Tree.rescale]
    exact key s
  fit G s := by
    have key : ∀ l : List (Tree D), (l.map (Tree.rescale G)).map (·.f) = (l.map (·.f)).map G := fun l => by simp [List.map_map, Function.comp_def, Tree.rescale]
    exact key s
  init G env env' hG hE := .bind' (.defaultNumpyInit hG hE) fun r => .pure' (by simp only [List.map_ofFn]; rfl)
  iter G env env' hG hE := by
    have key : ∀ (s : List (Tree D)) (xb : Vec D) (fxb : Fl), Follows G env env' (fun r : List (Tree D) × Vec D × Fl => (r.1.map (Tree.rescale G), r.2.1, G r.2.2))
        (iter B p s xb fxb) (iter B p (s.map (Tree.rescale G)) xb (G fxb)) := ?_
    · exact key
    intro s xb fxb
    have e1 : ((s.map (Tree.rescale G)).filter (·.age = 0)).map (·.x) = (s.filter (·.age = 0)).map (·.x) := by
      rw [List.filter_map, List.map_map]
      rfl
    have e2 : ((s.map (Tree.rescale G)).map fun t => (t.x, t.age + 1)) = s.map fun t => (t.x, t.age + 1) := by
      simp only [List.map_map, Function.comp_def, Tree.rescale]
    unfold iter
    rw [e1, e2]
    refine .step hG hE (.mapM' fun x => by unfold localSeed; blind) fun seeds => .bind' (evalTrees_follows hG hE _) fun ev =>
      .bind' (.sortRecs hE (val := fun t : Tree D => t.f) (val' := fun t : Tree D => t.f) (φ := Tree.rescale G) fun _ => rfl) fun sorted => ?_
    have e3 : ((sorted.map (Tree.rescale G)).drop p.areaLimit).map (·.x) = (sorted.drop p.areaLimit).map (·.x) := by
      rw [← List.map_drop]; simp [List.map_map, Function.comp_def, Tree.rescale]
    rw [e3, ← List.map_take]
    refine .bind' (φ := List.map (Tree.rescale G)) ?_ fun pop =>
      .bind' (.argminRec hG.keeps (val := fun t : Tree D => t.f) (val' := fun t : Tree D => t.f) (φ := Tree.rescale G) fun _ => rfl) fun best => .pure' ?_
    · unfold globalPhase
      refine .ite Iff.rfl (fun _ => .step hG hE (by unfold globalSeeding globalSeed; blind) fun seeds => .bind' (evalTrees_follows hG hE _) fun new => .pure' ?_) fun _ => .pure' rfl
      rw [List.map_append]
    · rw [freshen_rescale hG]
      exact Prod.ext rfl (betterLt_map hG _ _ _ _)

end FOA

/-! ### Multiple trajectory search -/
namespace MTS
variable [Arith] {env env' : Env (Vec D)}

def LS.rescale (G : Fl → Fl) (s : LS D) : LS D := { s with fx := G s.fx, fxb := G s.fxb }

theorem LS.start_rescale (B : Box D) (s : LS D) : (s.rescale G).start B = (s.start B).rescale G := rfl

theorem LS.record_rescale (hG : Gauge G) (s : LS D) (y : Vec D) (f b1 : Fl) : (s.rescale G).record y (G f) b1 = (s.record y f b1).rescale G := by
  simp only [LS.record, LS.rescale, hG.lt]
  split <;> rfl

theorem ls1Step_follows (hG : Gauge G) (hE : Rescaled G env env') (b1 b2 : Fl) (i : Fin D) (s : LS D) :
    Follows G env env' (LS.rescale G) (ls1Step b1 b2 i s) (ls1Step b1 b2 i (s.rescale G)) := by
  refine .step hG hE .repair fun y => .bind' (.eval hG hE) fun f => ?_
  dsimp only
  rw [LS.record_rescale hG]
  refine .ite (by rw [show (s.rescale G).fx = G s.fx from rfl, ES.eqB_gauge hG]) (fun _ => .pure' rfl) fun _ => .ite (hG.lt _ _) (fun _ => ?_) fun _ => .pure' rfl
  refine .step hG hE .repair fun y => .bind' (.eval hG hE) fun f => ?_
  dsimp only
  rw [LS.record_rescale hG]
  exact .ite (hG.le _ _) (fun _ => .pure' rfl) fun _ => .pure' rfl

theorem ls1_follows (hG : Gauge G) (hE : Rescaled G env env') (B : Box D) (b1 b2 : Fl) (s : LS D) : Follows G env env' (LS.rescale G) (ls1 B b1 b2 s) (ls1 B b1 b2 (s.rescale G)) := by
  unfold ls1
  rw [LS.start_rescale]
  exact .forFin fun i s => ls1Step_follows hG hE b1 b2 i s

theorem ls1v1_follows (hG : Gauge G) (hE : Rescaled G env env') (B : Box D) (b1 b2 : Fl) (s : LS D) :
    Follows G env env' (LS.rescale G) (ls1v1 B b1 b2 s) (ls1v1 B b1 b2 (s.rescale G)) := by
  unfold ls1v1
  rw [LS.start_rescale]
  refine .step hG hE .unifVec fun d => .forFin fun i s => ?_
  refine .step hG hE .repair fun y => .bind' (.eval hG hE) fun f => .ite (hG.lt _ _) (fun _ => .pure' ?_) fun _ =>
    .ite (by rw [show (s.rescale G).fx = G s.fx from rfl, ES.eqB_gauge hG]) (fun _ => .pure' rfl) fun _ => .ite (hG.lt _ _) (fun _ => ?_) fun _ => .pure' rfl
  · rw [LS.record_rescale hG]; rfl
  · refine .step hG hE .repair fun y => .bind' (.eval hG hE) fun f => .ite (hG.lt _ _) (fun _ => .pure' ?_) fun _ => .ite (hG.le _ _) (fun _ => .pure' rfl) fun _ => .pure' rfl
    rw [LS.record_rescale hG]; rfl

theorem ls2_follows (hG : Gauge G) (hE : Rescaled G env env') (B : Box D) (b1 b2 : Fl) (s : LS D) :
    Follows G env env' (LS.rescale G) (ls2 B b1 b2 s) (ls2 B b1 b2 (s.rescale G)) := by
  unfold ls2
  rw [LS.start_rescale]
  refine .forFin fun i s => .step hG hE .randVec fun u => .step hG hE (by blind) fun r => ?_
  refine .step hG hE .repair fun y => .bind' (.eval hG hE) fun f => .ite (hG.lt _ _) (fun _ => .pure' (LS.record_rescale hG ..)) fun _ =>
    .ite (by rw [show (s.rescale G).fx = G s.fx from rfl, ES.eqB_gauge hG]) (fun _ => .pure' rfl) fun _ => .ite (hG.lt _ _) (fun _ => ?_) fun _ => .pure' rfl
  exact .step hG hE .repair fun y => .bind' (.eval hG hE) fun f => .ite (hG.lt _ _) (fun _ => .pure' (LS.record_rescale hG ..)) fun _ =>
    .ite (hG.lt _ _) (fun _ => .pure' rfl) fun _ => .pure' rfl

theorem pick_rescale (hG : Gauge G) (l : List (Vec D × Fl)) : pick (l.map (scaleF G)) = (pick l).map (scaleF G) := by
  cases l with
  | nil => rfl
  | cons a l =>
    simp only [List.map_cons, pick, Option.map_some, Option.some.injEq]
    induction l generalizing a with
    | nil => rfl
    | cons b l ih =>
      simp only [List.map_cons, List.foldl_cons]
      rw [← ih]
      congr 1
      simp only [scaleF, hG.lt]
      split <;> rfl

theorem ls3v1Take_rescale (hG : Gauge G) (b1 b2 : Fl) (new : List (Vec D × Fl)) (s : LS D) :
    ls3v1Take b1 b2 (new.map (scaleF G)) (s.rescale G) = (ls3v1Take b1 b2 new s).rescale G := by
  have e1 : (new.map (scaleF G)).filter (fun e => e.2 < (s.rescale G).fxb) = (new.filter fun e => e.2 < s.fxb).map (scaleF G) := by
    simp only [List.filter_map, Function.comp_def, scaleF, LS.rescale, hG.lt]
  have e2 : (new.map (scaleF G)).filter (fun e => e.2 < (s.rescale G).fx) = (new.filter fun e => e.2 < s.fx).map (scaleF G) := by
    simp only [List.filter_map, Function.comp_def, scaleF, LS.rescale, hG.lt]
  unfold ls3v1Take
  simp only [e1, e2, List.length_map, pick_rescale hG]
  cases pick (new.filter fun e => e.2 < s.fxb) with
  | some e => rfl
  | none =>
    cases pick (new.filter fun e => e.2 < s.fx) with
    | some e => rfl
    | none => rfl

theorem ls3v1_follows (hG : Gauge G) (hE : Rescaled G env env') (B : Box D) (fuel : ℕ) (b1 b2 : Fl) (s : LS D) :
    Follows G env env' (LS.rescale G) (ls3v1 B fuel b1 b2 s) (ls3v1 B fuel b1 b2 (s.rescale G)) := by
  unfold ls3v1
  rw [show ({ s.rescale G with grade := Fl.ofNat 0 } : LS D) = LS.rescale G { s with grade := Fl.ofNat 0 } from rfl]
  generalize ({ s with grade := Fl.ofNat 0 } : LS D) = s
  generalize (fun j => (B.hi j - B.lo j) / Fl.ofNat 10) = disp
  induction fuel generalizing disp s with
  | zero => exact .ite Iff.rfl (fun _ => .throw) fun _ => .pure' rfl
  | succ n ih =>
    refine .ite Iff.rfl (fun _ => .step hG hE (by blind) fun rows => .step hG hE .repairRows fun rows => .bind' (.evalRows hG hE) fun fs => ?_) fun _ => .pure' rfl
    dsimp only
    rw [show (List.ofFn fun i => (rows i, G (fs i))) = (List.ofFn fun i => (rows i, fs i)).map (scaleF G) by rw [List.map_ofFn]; rfl, ls3v1Take_rescale hG]
    exact ih _ _

/-- The local searches that only compare values of the objective. -/
def Search.ordinal : Search → Bool
  | .ls3 => false
  | _ => true

theorem run_follows (hG : Gauge G) (hE : Rescaled G env env') (B : Box D) (b1 b2 : Fl) {k : Search} (hk : k.ordinal = true) (s : LS D) :
    Follows G env env' (LS.rescale G) (k.run B b1 b2 s) (k.run B b1 b2 (s.rescale G)) := by
  cases k with
  | ls1 => exact ls1_follows hG hE B b1 b2 s
  | ls1v1 => exact ls1v1_follows hG hE B b1 b2 s
  | ls2 => exact ls2_follows hG hE B b1 b2 s
  | ls3 => cases hk
  | ls3v1 fuel => exact ls3v1_follows hG hE B fuel b1 b2 s

theorem forList_mem {X σ τ α : Type} {env env' : Env X} {φ : σ → τ} {l : List α} {f : α → σ → Prog X σ} {k : α → τ → Prog X τ} {s : σ}
    (h : ∀ a ∈ l, ∀ s, Follows G env env' φ (f a s) (k a (φ s))) : Follows G env env' φ (forList l f s) (forList l k (φ s)) := by
  induction l generalizing s with
  | nil => exact .pure' rfl
  | cons a l ih => exact .bind' (h a List.mem_cons_self s) fun s => ih fun b hb => h b (List.mem_cons_of_mem _ hb)

theorem improve_follows (hG : Gauge G) (hE : Rescaled G env env') (B : Box D) {p : Par} (hp : ∀ k ∈ p.ls, k.ordinal = true) (s : LS D) :
    Follows G env env' (LS.rescale G) (improve B p s) (improve B p (s.rescale G)) := by
  refine .bind' (φ := LS.rescale G) ?_ fun r => ?_
  · refine forList_mem fun k hk s => .forFin fun _ s => .bind' (run_follows hG hE B _ _ (hp _ ?_) s) fun s => .ite Iff.rfl (fun _ => .throw) fun _ => .pure' rfl
    obtain ⟨-, -, h⟩ := List.mem_zipIdx hk
    rw [h]; exact List.getElem_mem _
  · cases h : p.ls.getLast? with
    | none => exact .throw
    | some k =>
      refine .forFin (φ := LS.rescale G) (s := { r with imp := s.imp, grade := Fl.ofNat 0 }) fun _ s => .bind' (run_follows hG hE B _ _ (hp k (List.mem_of_getLast? h)) s) fun r => .pure' rfl

def St.rescale (G : Fl → Fl) (s : St D N) : St D N := { s with fit := fun i => G (s.fit i) }

/-- Multiple trajectory search with local searches that compare only. -/
theorem C96_mts (B : Box D) (N : ℕ) {p : Par} (hp : ∀ k ∈ p.ls, k.ordinal = true) : Ordinal (alg B N p) St.rescale where
  pop G s := rfl
  fit G s := ofFn_scale _
  init G env env' hG hE := .bind' (.defaultNumpyInit hG hE) fun r => .pure' rfl
  iter G env env' hG hE := by
    have key : ∀ (s : St D N) (xb : Vec D) (fxb : Fl), Follows G env env' (fun r : St D N × Vec D × Fl => (r.1.rescale G, r.2.1, G r.2.2))
        (iter B p s xb fxb) (iter B p (s.rescale G) xb (G fxb)) := ?_
    · exact key
    intro s xb fxb
    refine .bind' (.forFin (φ := fun r : St D N × Vec D × Fl => (r.1.rescale G, r.2.1, G r.2.2)) (s := (s, xb, fxb)) fun i a => ?_) fun a =>
      .bind' (φ := scaleF G) (.forFin (φ := scaleF G) fun _ a => ?_) fun b => .step hG hE .sortIdx fun o => .pure' rfl
    · refine .ite Iff.rfl (fun _ => .bind' (improve_follows hG hE B hp ⟨a.1.pop i, a.1.fit i, a.2.1, a.2.2, false, a.1.imp i, a.1.sr i, Fl.ofNat 0⟩) fun r => .pure' ?_) fun _ => .pure' rfl
      simp only [St.rescale, LS.rescale, update_scale]
      rfl
    · exact .bind' (ls1_follows hG hE B _ _ ⟨a.1, a.2, a.1, a.2, true, false, fun j => (B.hi j - B.lo j) / Fl.ofNat 10, Fl.ofNat 0⟩) fun r => .pure' rfl

/-- The first variant of multiple trajectory search, with its default local searches. -/
theorem C96_mtsv1 (B : Box D) (N tests searches enabled : ℕ) (b1 b2 : Fl) : Ordinal (alg B N (parV1 tests searches enabled b1 b2)) St.rescale :=
  C96_mts B N fun k hk => by
    simp only [parV1, List.mem_cons, List.not_mem_nil, or_false] at hk
    rcases hk with rfl | rfl <;> rfl

end MTS

/-! ### Differential evolution with multiple trajectory search -/
namespace HDE
open DE
variable [Arith] {env env' : Env (Vec D)}

theorem turns_follows (hG : Gauge G) (hE : Rescaled G env env') (B : Box D) {p : MTS.Par} (hp : ∀ k ∈ p.ls, k.ordinal = true) (l : List (HDE.Ind D)) (xb : Vec D) (fxb : Fl) :
    Follows G env env' (DE.resc G) (turns B p l xb fxb) (turns B p (l.map (DE.Ind.rescale G)) xb (G fxb)) := by
  induction l generalizing xb fxb with
  | nil => exact .pure' rfl
  | cons e l ih =>
    refine .bind' (φ := fun r : HDE.Ind D × Vec D × Fl => (r.1.rescale G, r.2.1, G r.2.2)) ?_ fun a => .bind' (ih a.2.1 a.2.2) fun r => .pure' rfl
    exact .ite Iff.rfl (fun _ => .bind' (MTS.improve_follows hG hE B hp ⟨e.x, e.f, xb, fxb, false, e.ext.imp, e.ext.sr, Fl.ofNat 0⟩) fun r => .pure' rfl) fun _ => .pure' rfl

theorem sortCast (hG : Gauge G) (hE : Rescaled G env env') {n m : ℕ} (h : n = m) (c : Fl) :
    Follows G env env' (fun (r : Fin n → Fin n) (i : Fin m) => (r (i.cast h.symm)).cast h) (sortIdx fun _ : Fin n => c) (sortIdx fun _ : Fin m => c) := by
  subst h
  exact .blind hG hE .sortIdx

theorem ofFn_cast {α β : Type} {φ : α → β} {n m : ℕ} (h : n = m) {a : Fin n → α} {b : Fin m → β} (hab : ∀ i, b (i.cast h) = φ (a i)) : List.ofFn b = (List.ofFn a).map φ := by
  subst h
  rw [List.map_ofFn]
  congr 1
  funext i
  exact hab i

theorem any_cast {n m : ℕ} (h : n = m) (q : Fin n → Bool) (q' : Fin m → Bool) (hq : ∀ i, q' (i.cast h) = q i) : (List.finRange m).any q' = (List.finRange n).any q := by
  subst h
  rw [show q' = q from funext hq]

theorem enable_follows (hG : Gauge G) (hE : Rescaled G env env') (n : ℕ) (l : List (HDE.Ind D)) :
    Follows G env env' (List.map (DE.Ind.rescale G)) (enable n l) (enable n (l.map (DE.Ind.rescale G))) := by
  have hl : l.length = (l.map (DE.Ind.rescale G)).length := (List.length_map _).symm
  refine .bind' (sortCast hG hE hl _) fun o => .pure' (ofFn_cast hl fun i => ?_)
  rw [any_cast hl (fun k => decide ((k : ℕ) < n ∧ o k = i)) _ fun k => by simp [Fin.ext_iff]]
  simp [DE.Ind.rescale]

theorem ordinal {opt : OptType} {B : Box D} {N : ℕ} {p : MTS.Par} (hp : ∀ k ∈ p.ls, k.ordinal = true) {ev : Evolve D (Mark D)} (hev : OrdinalEvolve ev)
    {red : List (HDE.Ind D) → Prog (Vec D) (List (HDE.Ind D))}
    (hred : ∀ G env env', Gauge G → Rescaled G env env' → ∀ l, Follows G env env' (List.map (DE.Ind.rescale G)) (red l) (red (l.map (DE.Ind.rescale G)))) :
    Ordinal (mk opt B N p ev red) fun G l => l.map (DE.Ind.rescale G) where
  pop G l := (DE.ordinal hev (opt := opt) (B := B) (N := N) (ext := fresh B) hred).pop G l
  fit G l := (DE.ordinal hev (opt := opt) (B := B) (N := N) (ext := fresh B) hred).fit G l
  init G env env' hG hE := (DE.ordinal hev (opt := opt) (B := B) (N := N) (ext := fresh B) hred).init G env env' hG hE
  iter G env env' hG hE := by
    have key : ∀ (l : List (HDE.Ind D)) (xb : Vec D) (fxb : Fl), Follows G env env' (DE.resc G) (iter B p ev red l xb fxb) (iter B p ev red (l.map (DE.Ind.rescale G)) xb (G fxb)) := ?_
    · exact key
    intro l xb fxb
    exact .bind' (hev G env env' hG hE l xb) fun new => .bind' (select_follows hG l new xb fxb) fun a => .bind' (hred G env env' hG hE a.1) fun l =>
      .bind' (turns_follows hG hE B hp l a.2.1 a.2.2) fun a => .bind' (enable_follows hG hE p.enabled a.1) fun l => .bind' (DE.best_follows hG) fun b => .pure' rfl

theorem C96_hde (opt : OptType) (B : Box D) (N : ℕ) {p : MTS.Par} (hp : ∀ k ∈ p.ls, k.ordinal = true) {strat : Strategy D} (hs : BlindStrategy strat) (f cr : Fl) :
    Ordinal (alg opt B N p strat f cr) fun G l => l.map (DE.Ind.rescale G) := ordinal hp (.evolve hs f cr) fun _ _ _ _ _ _ => .pure' rfl

theorem C96_hde_multi (opt : OptType) (B : Box D) (N : ℕ) {p : MTS.Par} (hp : ∀ k ∈ p.ls, k.ordinal = true) {strats : List (Strategy D)} (hs : ∀ st ∈ strats, BlindStrategy st)
    (f cr : Fl) : Ordinal (algMulti opt B N p strats f cr) fun G l => l.map (DE.Ind.rescale G) := ordinal hp (.evolveMulti hs f cr) fun _ _ _ _ _ _ => .pure' rfl

theorem C96_hde_dyn (opt : OptType) (B : Box D) (N : ℕ) {p : MTS.Par} (hp : ∀ k ∈ p.ls, k.ordinal = true) {strat : Strategy D} (hs : BlindStrategy strat) (f cr : Fl)
    (pMax rp : ℕ) : Ordinal (algDyn opt B N p strat f cr pMax rp) fun G l => l.map (DE.Ind.rescale G) :=
  ordinal hp (.evolve hs f cr) fun _ _ _ hG hE l => reduce_follows hG hE pMax rp l

theorem C96_hde_dyn_multi (opt : OptType) (B : Box D) (N : ℕ) {p : MTS.Par} (hp : ∀ k ∈ p.ls, k.ordinal = true) {strats : List (Strategy D)}
    (hs : ∀ st ∈ strats, BlindStrategy st) (f cr : Fl) (pMax rp : ℕ) : Ordinal (algDynMulti opt B N p strats f cr pMax rp) fun G l => l.map (DE.Ind.rescale G) :=
  ordinal hp (.evolveMulti hs f cr) fun _ _ _ hG hE l => reduce_follows hG hE pMax rp l

end HDE

/-! ### The list -/

/-- The algorithms of the library that only compare fitness values, with any parameters. -/
inductive Comparing [Arith] (opt : OptType) (B : Box D) : Alg (Vec D) → Prop
  | de N {strat} (hs : DE.BlindStrategy strat) f cr : Comparing opt B (DE.alg opt B N strat f cr)
  | deMulti N {strats} (hs : ∀ st ∈ strats, DE.BlindStrategy st) f cr : Comparing opt B (DE.algMulti opt B N strats f cr)
  | deDyn N {strat} (hs : DE.BlindStrategy strat) f cr pMax rp : Comparing opt B (DE.algDyn opt B N strat f cr pMax rp)
  | deDynMulti N {strats} (hs : ∀ st ∈ strats, DE.BlindStrategy st) f cr pMax rp : Comparing opt B (DE.algDynMulti opt B N strats f cr pMax rp)
  | jde N {strat} (hs : DE.BlindStrategy strat) p : Comparing opt B (JDE.alg opt B N strat p)
  | jdeMulti N {strats} (hs : ∀ st ∈ strats, DE.BlindStrategy st) f cr : Comparing opt B (JDE.algMulti opt B N strats f cr)
  | hde N {p} (hp : ∀ k ∈ p.ls, MTS.Search.ordinal k = true) {strat} (hs : DE.BlindStrategy strat) f cr : Comparing opt B (HDE.alg opt B N p strat f cr)
  | hdeMulti N {p} (hp : ∀ k ∈ p.ls, MTS.Search.ordinal k = true) {strats} (hs : ∀ st ∈ strats, DE.BlindStrategy st) f cr :
      Comparing opt B (HDE.algMulti opt B N p strats f cr)
  | hdeDyn N {p} (hp : ∀ k ∈ p.ls, MTS.Search.ordinal k = true) {strat} (hs : DE.BlindStrategy strat) f cr pMax rp :
      Comparing opt B (HDE.algDyn opt B N p strat f cr pMax rp)
  | hdeDynMulti N {p} (hp : ∀ k ∈ p.ls, MTS.Search.ordinal k = true) {strats} (hs : ∀ st ∈ strats, DE.BlindStrategy st) f cr pMax rp :
      Comparing opt B (HDE.algDynMulti opt B N p strats f cr pMax rp)
  | mts N {p} (hp : ∀ k ∈ p.ls, MTS.Search.ordinal k = true) : Comparing opt B (MTS.alg B N p)
  | pso N p u c m : Comparing opt B (PSO.alg B N p u c m)
  | ovcpso N p : Comparing opt B (PSO.algO B N p)
  | clpso N p : Comparing opt B (PSO.algC B N p)
  | gwo N : Comparing opt B (GWO.alg B N)
  | hc delta fuel : Comparing opt B (HC.alg B delta fuel)
  | rs fuel : Comparing opt B (RS.alg B fuel)
  | mfo N : Comparing opt B (MFO.alg B N)
  | sca N p : Comparing opt B (SCA.alg B N p)
  | cs N pa : Comparing opt B (CS.alg B N pa)
  | fpa N p : Comparing opt B (FPA.alg B N p)
  | fa N p : Comparing opt B (FA.alg B N p)
  | mke N p v2 : Comparing opt B (MKE.alg opt B N p v2)
  | mke3 N fc n : Comparing opt B (MKE.alg3 B N fc n)
  | hs N p : Comparing opt B (HS.alg B N p)
  | hho N levy : Comparing opt B (HHO.alg B N levy)
  | ba N p : Comparing opt B (BA.alg B N p)
  | aba N p : Comparing opt B (BAT.alg B N p)
  | saba N p q : Comparing opt B (BAT.algS B N p q)
  | hsaba N p q {strat} (hs : DE.BlindStrategy strat) f cr : Comparing opt B (BAT.algHS B N p q strat f cr)
  | hba N p {c} (hs : DE.BlindStrategy (BAT.Callee.run c)) f cr : Comparing opt B (BAT.algH B N p c f cr)
  | plba N : Comparing opt B (BAT.algP B N)
  | bea N p : Comparing opt B (BEA.alg B N p)
  | ga N ts c mu fuel : Comparing opt B (GA.alg opt B N ⟨.tournament ts, c, mu⟩ fuel)
  | es1 p : Comparing opt B (ES.alg1 opt B p)
  | esl p lam : Comparing opt B (ES.algL opt B p lam)
  | esm mu lam : Comparing opt B (ES.algM opt B mu lam)
  | nm N p : Comparing opt B (NM.alg B N p)
  | mbo N p : Comparing opt B (MBO.alg B N p)
  | mshoa N p : Comparing opt B (MSHOA.alg B N p)
  | cro N p : Comparing opt B (CRO.alg B N p)
  | foa N p : Comparing opt B (FOA.alg B N p)

theorem Comparing.ordinal [Arith] {opt : OptType} {B : Box D} {A : Alg (Vec D)} (h : Comparing opt B A) : ∃ m, Ordinal A m := by
  cases h with
  | de N hs f cr => exact ⟨_, DE.C96_de opt B N hs f cr⟩
  | deMulti N hs f cr => exact ⟨_, DE.C96_multi opt B N hs f cr⟩
  | deDyn N hs f cr pMax rp => exact ⟨_, DE.C96_dyn opt B N hs f cr pMax rp⟩
  | deDynMulti N hs f cr pMax rp => exact ⟨_, DE.C96_dyn_multi opt B N hs f cr pMax rp⟩
  | jde N hs p => exact ⟨_, JDE.C96_jde opt B N hs p⟩
  | jdeMulti N hs f cr => exact ⟨_, JDE.C96_jde_multi opt B N hs f cr⟩
  | hde N hp hs f cr => exact ⟨_, HDE.C96_hde opt B N hp hs f cr⟩
  | hdeMulti N hp hs f cr => exact ⟨_, HDE.C96_hde_multi opt B N hp hs f cr⟩
  | hdeDyn N hp hs f cr pMax rp => exact ⟨_, HDE.C96_hde_dyn opt B N hp hs f cr pMax rp⟩
  | hdeDynMulti N hp hs f cr pMax rp => exact ⟨_, HDE.C96_hde_dyn_multi opt B N hp hs f cr pMax rp⟩
  | mts N hp => exact ⟨_, MTS.C96_mts B N hp⟩
  | pso N p u c m => exact ⟨_, PSO.C96_pso B N p u c m⟩
  | ovcpso N p => exact ⟨_, PSO.C96_ovcpso B N p⟩
  | clpso N p => exact ⟨_, PSO.C96_clpso B N p⟩
  | gwo N => exact ⟨_, GWO.C96_gwo B N⟩
  | hc delta fuel => exact ⟨_, HC.C96_hc B delta fuel⟩
  | rs fuel => exact ⟨_, RS.C96_rs B fuel⟩
  | mfo N => exact ⟨_, MFO.C96_mfo B N⟩
  | sca N p => exact ⟨_, SCA.C96_sca B N p⟩
  | cs N pa => exact ⟨_, CS.C96_cs B N pa⟩
  | fpa N p => exact ⟨_, FPA.C96_fpa B N p⟩
  | fa N p => exact ⟨_, FA.C96_fa B N p⟩
  | mke N p v2 => exact ⟨_, MKE.C96_mke opt B N p v2⟩
  | mke3 N fc n => exact ⟨_, MKE.C96_mke3 B N fc n⟩
  | hs N p => exact ⟨_, HS.C96_hs B N p⟩
  | hho N levy => exact ⟨_, HHO.C96_hho B N levy⟩
  | ba N p => exact ⟨_, BA.C96_ba B N p⟩
  | aba N p => exact ⟨_, BAT.C96_adaptive B N p⟩
  | saba N p q => exact ⟨_, BAT.C96_self B N p q⟩
  | hsaba N p q hs f cr => exact ⟨_, BAT.C96_hybrid_self B N p q hs f cr⟩
  | hba N p hs f cr => exact ⟨_, BAT.C96_hybrid B N p hs f cr⟩
  | plba N => exact ⟨_, BAT.C96_free B N⟩
  | bea N p => exact ⟨_, BEA.C96_bea B N p⟩
  | ga N ts c mu fuel => exact ⟨_, GA.C96_ga opt B N ts c mu fuel⟩
  | es1 p => exact ⟨_, ES.C96_es1 opt B p⟩
  | esl p lam => exact ⟨_, ES.C96_esl opt B p lam⟩
  | esm mu lam => exact ⟨_, ES.C96_esm opt B mu lam⟩
  | nm N p => exact ⟨_, NM.C96_nm B N p⟩
  | mbo N p => exact ⟨_, MBO.C96_mbo B N p⟩
  | mshoa N p => exact ⟨_, MSHOA.C96_mshoa B N p⟩
  | cro N p => exact ⟨_, CRO.C96_cro B N p⟩
  | foa N p => exact ⟨_, FOA.C96_foa B N p⟩

/-- **C96.** For the listed algorithms: if objective and cutoff value are replaced by a strictly increasing function of them, the same points are evaluated in
the same order, with the same numbers of evaluations and iterations; the same solution is returned with its transformed fitness, or the same exception is
raised; and callbacks are called at the same times with the same populations. Holds for every arithmetic. -/
theorem C96 [Arith] {opt : OptType} {B : Box D} {A : Alg (Vec D)} (h : Comparing opt B A) {env env' : Env (Vec D)} (hG : Gauge G) (hE : Rescaled G env env') (main : Bool)
    (ncb fuel : ℕ) :
    (match (A.exec env main ncb fuel).1 with
      | .ok r => (A.exec env' main ncb fuel).1 = .ok ⟨r.result.map fun b => (b.1, env.opt.conj G b.2), r.exception⟩
      | .error e => (A.exec env' main ncb fuel).1 = .error e) ∧
    Aligned G env.opt (A.exec env main ncb fuel).2 (A.exec env' main ncb fuel).2 := by
  obtain ⟨m, hA⟩ := h.ordinal
  have := hA.exec hG hE main ncb fuel
  refine ⟨?_, this.2⟩
  cases h : (A.exec env main ncb fuel).1 with
  | ok r => rw [h] at this; exact this.1
  | error e => rw [h] at this; exact this.1

/-- The standard strategies of differential evolution are admitted. -/
example [Arith] (B : Box D) (f cr : Fl) : Comparing .maximization B (DE.alg .maximization B 50 DE.crossRand1 f cr) :=
  .de 50 (DE.BlindStrategy.std 3 _) f cr

/-! ### The transformed task -/

/-- The same task with objective and cutoff value transformed by `G` (when maximizing, by `v ↦ -G (-v)`). -/
def Env.rescaled {X : Type} (G : Fl → Fl) (env : Env X) : Env X :=
  { env with obj := fun k x => rescaleRes (env.opt.conj G) (env.obj k x), cutoff := env.opt.conj G env.cutoff }

theorem Rescaled.of {X : Type} {env : Env X} (hc : ∀ i k e, env.callback i k (e.rescale G) = env.callback i k e)
    (hs : ∀ k l, env.rng.argsort k (l.map G) = env.rng.argsort k l) : Rescaled G env (env.rescaled G) :=
  ⟨fun _ _ => rfl, rfl, rfl, rfl, rfl, rfl, rfl, rfl, hc, hs⟩

theorem leNanLast_gauge (hG : Gauge G) (a b : Fl) : leNanLast (G a) (G b) ↔ leNanLast a b := by
  unfold leNanLast
  rw [hG.nan, hG.le]

namespace Ex

theorem insertionSort_congr {r s : ℕ → ℕ → Prop} [DecidableRel r] [DecidableRel s] (h : ∀ i j, r i j ↔ s i j) (l : List ℕ) : l.insertionSort r = l.insertionSort s := by
  have e : r = s := funext fun i => funext fun j => propext (h i j)
  subst e
  congr!

/-- The stable sort of the examples compares only. -/
theorem argsort_gauge (hG : Gauge G) (d : Draws) (k : ℕ) (l : List Fl) : d.rng.argsort k (l.map G) = d.rng.argsort k l := by
  have e : ∀ i : ℕ, (l.map G).getD i .nan = G (l.getD i .nan) := fun i => by
    rw [List.getD_eq_getElem?_getD, List.getD_eq_getElem?_getD, List.getElem?_map]
    cases l[i]? with
    | none => exact ((hG.nan _).2 rfl).symm
    | some v => rfl
  show (List.range (l.map G).length).insertionSort (sortRel (l.map G)) = (List.range l.length).insertionSort (sortRel l)
  rw [List.length_map]
  refine insertionSort_congr (fun i j => ?_) _
  unfold sortRel
  rw [e, e]
  exact leNanLast_gauge hG _ _

theorem env2_rescaled (hG : Gauge G) (mi : ℕ) (me : Option ℕ) : Rescaled G (env2 (D := D) mi me) ((env2 mi me).rescaled G) := .of (fun _ _ _ => rfl) fun k l => argsort_gauge hG _ k l

/-- Some increasing functions. -/
def cube : Fl → Fl := Fl.lift fun q => q ^ 3
def large : Fl → Fl := Fl.lift fun q => 1000 * q
def below : Fl → Fl := Fl.lift fun q => q - 3

theorem cube_gauge : Gauge cube := .lift (Odd.strictMono_pow (by decide))
theorem large_gauge : Gauge large := .lift fun a b h => by simpa using h
theorem below_gauge : Gauge below := .lift fun a b h => by simpa using h

/-- Non-vacuity of C96: a task and its transform by the cube, on which an algorithm runs. -/
example : ∃ env env' : Env (Vec 2), Gauge cube ∧ Rescaled cube env env' ∧ env.obj 0 (fun _ => .fin 1) = .ok (.fin 2) ∧ env'.obj 0 (fun _ => .fin 1) = .ok (.fin 8) ∧
    (∃ r, ((@GWO.alg arith 2 (box 2) 4).exec env true 0 5).1 = .ok ⟨some r, none⟩) := by
  refine ⟨env2 2, (env2 2).rescaled cube, cube_gauge, env2_rescaled cube_gauge 2 none, by decide +kernel, by decide +kernel, ?_⟩
  have h : (match ((@GWO.alg arith 2 (box 2) 4).exec (env2 2) true 0 5).1 with | .ok ⟨some _, none⟩ => true | _ => false) = true := by decide +kernel
  split at h
  · exact ⟨_, by assumption⟩
  · cases h

/-- The first coordinates of the points evaluated in a run. -/
def path (A : Alg (Vec 1)) (env : Env (Vec 1)) : List Fl := (A.exec env true 0 20).2.calls.map fun c => c.1 0

/-- An algorithm evaluates other points after the transformation of a task. -/
def Diverges (A : Alg (Vec 1)) : Prop := ∃ (G : Fl → Fl) (env env' : Env (Vec 1)), Gauge G ∧ Rescaled G env env' ∧
  (A.exec env' true 0 20).2.calls.map (·.1) ≠ (A.exec env true 0 20).2.calls.map (·.1)

theorem Diverges.of {A : Alg (Vec 1)} (hG : Gauge G) (m : ℕ) (h : path A ((env2 m).rescaled G) ≠ path A (env2 m)) : Diverges A :=
  ⟨G, env2 m, (env2 m).rescaled G, hG, env2_rescaled hG m none, fun e => h (by
    have := congrArg (List.map fun x : Vec 1 => x 0) e
    simpa [path, List.map_map, Function.comp_def] using this)⟩

/-- Not so for an algorithm that compares only. -/
theorem Diverges.not {A : Alg (Vec 1)} {m : (Fl → Fl) → A.σ → A.σ} (hA : Ordinal A m) : ¬ Diverges A := fun ⟨G, env, env', hG, hE, h⟩ => h (by
  rw [(hA.exec hG hE true 0 20).2.calls, List.map_map]
  rfl)

end Ex

/-! ### Algorithms that use the values themselves -/

/-- **C96** does not hold of the gravitational search algorithm: masses are proportional to fitness differences. -/
theorem GSA.C96_false : letI := NiaPy.Ex.arith; NiaPy.Ex.Diverges (GSA.alg (NiaPy.Ex.box 1) 3 ⟨.fin 1, .fin (1 / 10)⟩) :=
  letI := NiaPy.Ex.arith; .of NiaPy.Ex.cube_gauge 3 (by decide +kernel)

/-- **C96** does not hold of the fish school search: the school moves by fitness differences. -/
theorem FSS.C96_false : letI := NiaPy.Ex.arith;
    NiaPy.Ex.Diverges (FSS.alg .minimization (NiaPy.Ex.box 1) 4 ⟨.fin (1 / 2), .fin (1 / 10), .fin (1 / 2), .fin (1 / 10), .fin 1, .fin 500⟩) :=
  letI := NiaPy.Ex.arith; .of NiaPy.Ex.cube_gauge 3 (by decide +kernel)

/-- **C96** does not hold of multiple trajectory search with the default local searches, not even for multiplication by 1000. -/
theorem MTS.C96_false : letI := NiaPy.Ex.arith; NiaPy.Ex.Diverges (MTS.alg (NiaPy.Ex.box 1) 3 ⟨1, 1, 1, 1, .fin 10, .fin 1, [.ls1, .ls2, .ls3]⟩) :=
  letI := NiaPy.Ex.arith; .of NiaPy.Ex.large_gauge 3 (by decide +kernel)

/-- **C96** does not hold of the artificial bee colony, not even for adding a constant: the probabilities are proportional to the values, so negative ones
reverse the preference. -/
theorem ABC.C96_false : letI := NiaPy.Ex.arith; NiaPy.Ex.Diverges (ABC.alg .minimization (NiaPy.Ex.box 1) 6 100 100) :=
  letI := NiaPy.Ex.arith; .of NiaPy.Ex.below_gauge 2 (by decide +kernel)

/-- **C96** does not hold of the clonal selection algorithm: the rate of mutation depends on the values. -/
theorem CLONALG.C96_false : letI := SA.Ex.arith; NiaPy.Ex.Diverges (CLONALG.alg (NiaPy.Ex.box 1) 4 4 ⟨1, .fin (-1 / 2), 1⟩) :=
  letI := SA.Ex.arith; .of NiaPy.Ex.below_gauge 2 (by decide +kernel)

/-- **C96** does not hold of simulated annealing, not even for multiplication by 1000: temperatures are on the scale of the objective. -/
theorem SA.C96_false : letI := SA.Ex.arith; NiaPy.Ex.Diverges (SA.alg (NiaPy.Ex.box 1) ⟨.fin 2, .fin 1, .fin 1, .delta⟩) :=
  letI := SA.Ex.arith; .of NiaPy.Ex.large_gauge 12 (by decide +kernel)

end NiaPy
