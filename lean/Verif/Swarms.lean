import Verif.Ranges
import Verif.Algo.CSO
import Verif.Algo.BA
import Verif.Algo.CRO

/-!
# The moves of cats, bats and corals (C111)
-/

namespace NiaPy
variable [Arith] {D N : ℕ} {env : Env (Vec D)}

/-! ### Cat swarm optimization -/

namespace CSO

/-- No component of the velocity is out of the limits (one may be NaN). -/
def Limited (m : Fl) (v : Vec D) : Prop := ∀ j, ¬ v j < -m ∧ ¬ m < v j

theorem clip_limited {v m : Fl} (hm : ¬ m < -m) : ¬ clip v (-m) m < -m ∧ ¬ m < clip v (-m) m := by
  unfold clip
  split
  · exact ⟨by simp, by simp⟩
  · split
    · exact ⟨Fl.lt_irrefl _, hm⟩
    · split
      · exact ⟨hm, Fl.lt_irrefl _⟩
      · exact ⟨‹_›, ‹_›⟩

theorem share_vel (x : Vec D) (f fxb : Fl) (s : St D N) : Post env (share x f fxb s) fun s' => s'.vel = s.vel := by
  unfold share
  split
  · exact .bind' .any fun _ _ => .pure' rfl
  · exact .pure' rfl

theorem choose_vel {n : ℕ} (cs : Fin n → Vec D × Fl) (fxb : Fl) (k : Fin N) (s : St D N) : Post env (choose cs fxb k s) fun s' => s'.vel = s.vel :=
  .bind' .any fun _ _ => .bind' .any fun _ _ => .bind' (share_vel _ _ _ _) fun _ h => .bind' .any fun _ _ => .pure' h

theorem seek_vel (p : Par) (fxb : Fl) (k : Fin N) (s : St D N) : Post env (seek p fxb k s) fun s' => s'.vel = s.vel := by
  refine .bind' .any fun cs _ => ?_
  split
  · exact choose_vel _ _ _ _
  · exact choose_vel _ _ _ _

theorem trace_limited {p : Par} (hm : ¬ p.maxV < -p.maxV) (xb : Vec D) (k : Fin N) {s : St D N} (h : ∀ i, Limited p.maxV (s.vel i)) :
    Post env (trace p xb k s) fun s' => ∀ i, Limited p.maxV (s'.vel i) := by
  refine .bind' .any fun r _ => .bind' .any fun x _ => .bind' .any fun f _ => .pure' fun i => ?_
  by_cases e : i = k
  · subst e
    intro j
    simp only [Function.update_self]
    exact clip_limited hm
  · simp only [Function.update_of_ne e]
    exact h i

/-- C111: in all iterations the velocities of all cats are within `-max_velocity` and `max_velocity`. -/
theorem C111_velocities {B : Box D} {p : Par} (hm : -p.maxV ≤ p.maxV) {ncb : ℕ} {hist : List ((alg B N p).σ × Vec D × Fl)} {w : World (Vec D)}
    (ht : (alg B N p).Trace env ncb hist w) (r) (hr : r ∈ hist) : ∀ i, Limited p.maxV (St.vel (D := D) (N := N) r.1 i) := by
  obtain ⟨pre, rest, he⟩ := List.append_of_mem hr
  refine ht.after (P := fun _ (s : St D N) => ∀ i, Limited p.maxV (s.vel i)) ?_ ?_ he
  · refine .bind' .any fun a _ => .bind' (P := fun v => ∀ i, Limited p.maxV (v i)) ?_ fun v hv => .pure' hv
    exact .tabM fun _ => (Post.yields .unifVec).mono fun v hv j => ⟨Fl.not_lt_of_le (hv j hm).1, Fl.not_lt_of_le (hv j hm).2⟩
  · intro n s xb fxb h
    refine .bind' .any fun m _ => .bind' (Post.eachFin (fun s : St D N => ∀ i, Limited p.maxV (s.vel i)) h fun k s h => ?_) fun s' h' => .bind' .any fun b _ => .pure' h'
    split
    · exact trace_limited (Fl.not_lt_of_le hm) xb k h
    · exact (seek_vel p fxb k s).mono fun s' e => by rw [e]; exact h

/-- What a seeking cat evaluates: at most `int(D * cdc)` coordinates of the cat are changed, all of them by the share `srd` in the same
direction, before the point is repaired. -/
def Varied (p : Par) (cat y : Vec D) : Prop :=
  ∃ vary : Finset (Fin D), vary.card ≤ floorNat (Fl.ofNat D * p.cdc) ∧ (∀ j ∉ vary, y j = cat j) ∧
    ((∀ j ∈ vary, y j = cat j + cat j * p.srd) ∨ ∀ j ∈ vary, y j = cat j - cat j * p.srd)

/-- C111: the copies of a seeking cat. -/
theorem C111_copy (p : Par) (cat : Vec D) : Post env (copy p cat) fun r =>
    (∃ y rng k, Varied p cat y ∧ r.1 = env.repairFn rng k y) ∧ Possible env r.1 r.2 := by
  refine .bind' .any fun idx _ => .bind' .any fun coin _ => ?_
  dsimp only
  refine .bind' (P := fun x => ∃ y rng k, Varied p cat y ∧ x = env.repairFn rng k y) (.repair fun rng k => ⟨_, rng, k, ?_, rfl⟩) fun x hx =>
    .bind' (.eval fun v hv => hv) fun f hf => .pure' ⟨hx, hf⟩
  classical
  refine ⟨(Finset.univ.filter fun i : Fin D => i.val < floorNat (Fl.ofNat D * p.cdc)).image idx, Finset.card_image_le.trans ?_, fun j hj => ?_, ?_⟩
  · refine le_trans (Finset.card_le_card_of_injOn (t := Finset.range (floorNat (Fl.ofNat D * p.cdc))) (fun i => i.val) (fun i hi => ?_) Fin.val_injective.injOn) (by simp)
    simpa using hi
  · beta_reduce
    rw [if_neg]
    rintro ⟨i, h1, h2⟩
    exact hj (Finset.mem_image.2 ⟨i, by simpa using h1, h2⟩)
  · have hm : ∀ j ∈ (Finset.univ.filter fun i : Fin D => i.val < floorNat (Fl.ofNat D * p.cdc)).image idx,
        ∃ i : Fin D, i.val < floorNat (Fl.ofNat D * p.cdc) ∧ idx i = j := fun j hj => by
      obtain ⟨i, h1, h2⟩ := Finset.mem_image.1 hj
      exact ⟨i, by simpa using h1, h2⟩
    by_cases hc : coin = 1
    · left
      intro j hj
      beta_reduce
      rw [if_pos (hm j hj), if_pos hc]
    · right
      intro j hj
      beta_reduce
      rw [if_pos (hm j hj), if_neg hc]

/-- C111: a copy that is better than the best solution goes to some cat of the population, and the others stay. -/
theorem C111_share (x : Vec D) (f fxb : Fl) (s : St D N) : Post env (share x f fxb s) fun s' =>
    (f < fxb → ∃ k, s'.pop = Function.update s.pop k x ∧ s'.fit = Function.update s.fit k f) ∧ (¬ f < fxb → s' = s) := by
  unfold share
  split
  · exact .bind' .any fun k _ => .pure' ⟨fun _ => ⟨k, rfl, rfl⟩, fun h => absurd ‹_› h⟩
  · exact .pure' ⟨fun h => absurd h ‹_›, fun _ => rfl⟩

/-- The hypothesis of `C111_velocities` for the default 1.9. -/
example : letI := NiaPy.Ex.arith; -Fl.fin (19 / 10) ≤ Fl.fin (19 / 10) := by decide +kernel

end CSO

/-! ### The bat algorithm -/

namespace BA

theorem step_loud (p : Par) (l q : Fl) (i : Fin N) (a : St D N × Vec D × Fl) : Post env (step p l q i a) fun a' => a'.1.loud = a.1.loud := by
  obtain ⟨s, xb, fxb⟩ := a
  refine .bind' .any fun r _ => ?_
  dsimp only
  refine .bind' .any fun y _ => .bind' .any fun f _ => .bind' .any fun acc _ => .pure' ?_
  dsimp only
  split <;> rfl

/-- The loudness in iteration `k`, `alpha` to the power `k` times the initial one. -/
def loudAt (p : Par) (k : ℕ) : Fl := (fun l => l * p.alpha)^[k] p.loudness

/-- C111: the loudness is multiplied by `alpha` in every iteration and by nothing else. -/
theorem C111_loudness {B : Box D} {p : Par} {ncb : ℕ} {hist pre rest : List ((alg B N p).σ × Vec D × Fl)} {r} {w : World (Vec D)}
    (ht : (alg B N p).Trace env ncb hist w) (he : hist = pre ++ r :: rest) : St.loud (D := D) (N := N) r.1 = loudAt p rest.length := by
  refine ht.after (P := fun n (s : St D N) => s.loud = loudAt p n) ?_ ?_ he
  · exact .bind' .any fun a _ => .pure' rfl
  · intro n s xb fxb h
    refine .bind' .any fun v _ => ?_
    dsimp only
    refine .bind' .any fun a _ => .pure' ?_
    show s.loud * p.alpha = _
    rw [h, loudAt, loudAt, Function.iterate_succ_apply']

/-- C111: a bat adds to its velocity its difference to the best solution, times a frequency `min + (max - min) r` with `0 ≤ r < 1`, and
keeps it whether or not it moves; the other bats keep theirs. -/
theorem C111_velocity (p : Par) (l q : Fl) (i : Fin N) (s : St D N) (xb : Vec D) (fxb : Fl) : Post env (step p l q i (s, xb, fxb)) fun a' =>
    (∃ r, .fin 0 ≤ r ∧ r < .fin 1 ∧ a'.1.vel i = fun j => s.vel i j + (s.pop i j - xb j) * (p.minFrequency + (p.maxFrequency - p.minFrequency) * r)) ∧
    ∀ k, k ≠ i → a'.1.vel k = s.vel k ∧ a'.1.pop k = s.pop k ∧ a'.1.fit k = s.fit k := by
  refine .bind' (P := fun r => .fin 0 ≤ r ∧ r < .fin 1) (.rand fun r h1 h2 => ⟨h1, h2⟩) fun r hr => ?_
  dsimp only
  refine .bind' .any fun y _ => .bind' .any fun f _ => .bind' .any fun acc _ => .pure' ?_
  dsimp only
  refine ⟨⟨r, hr.1, hr.2, ?_⟩, fun k hk => ?_⟩
  · split <;> simp
  · split <;> simp [hk]

end BA

/-! ### Coral reefs optimization -/

namespace CRO

omit [Arith] in
/-- C111: of the fitness values that `depredation` removes, none is below one that it keeps; it removes `num_depredation` of them. -/
theorem C111_depredation (p : Par) (reef : List (Vec D × Fl)) : Post env (depredation p reef) fun l =>
    ∃ out, (l ++ out).Perm reef ∧ out.length = min p.numDepredation reef.length ∧ ∀ a ∈ l, ∀ b ∈ out, leNanLast a.2 b.2 := by
  refine .bind' (.yields .argsort) fun idx hi => .pure' ?_
  obtain ⟨hp, hs⟩ := hi
  rw [List.length_map] at hp
  set k := idx.length - p.numDepredation with hk
  have hlen : idx.length = reef.length := by simpa using hp.length_eq
  have hT : idx.reverse.take p.numDepredation = (idx.drop k).reverse := by rw [List.take_reverse]
  have hsplit : idx.take k ++ idx.drop k = idx := List.take_append_drop k idx
  have hnd : idx.Nodup := hp.nodup_iff.2 List.nodup_range
  rw [hT]
  refine ⟨((List.finRange reef.length).filter fun j => !decide (j.val ∉ (idx.drop k).reverse)).map reef.get, ?_, ?_, ?_⟩
  · rw [← List.map_append]
    have := (List.filter_append_perm (fun j : Fin reef.length => decide (j.val ∉ (idx.drop k).reverse)) (List.finRange reef.length)).map reef.get
    rw [List.map_get_finRange] at this
    exact this
  · have h1 : (((List.finRange reef.length).filter fun j => !decide (j.val ∉ (idx.drop k).reverse)).map Fin.val).Perm (idx.drop k) := by
      refine (List.perm_ext_iff_of_nodup (((List.nodup_finRange _).filter _).map Fin.val_injective) (hnd.sublist (List.drop_sublist _ _))).2 fun a => ?_
      constructor
      · intro h
        obtain ⟨j, h1, rfl⟩ := List.mem_map.1 h
        simpa using (List.mem_filter.1 h1).2
      · intro h
        have : a < reef.length := List.mem_range.1 (hp.mem_iff.1 (List.mem_of_mem_drop h))
        exact List.mem_map.2 ⟨⟨a, this⟩, List.mem_filter.2 ⟨List.mem_finRange _, by simpa using h⟩, rfl⟩
    have := h1.length_eq
    simp only [List.length_map, List.length_drop] at this ⊢
    rw [this]
    omega
  · intro a ha b hb
    obtain ⟨i, h1, rfl⟩ := List.mem_map.1 ha
    obtain ⟨j, h2, rfl⟩ := List.mem_map.1 hb
    have hi : i.val ∉ idx.drop k := by simpa using (List.mem_filter.1 h1).2
    have hj : j.val ∈ idx.drop k := by simpa using (List.mem_filter.1 h2).2
    have hi' : i.val ∈ idx.take k := by
      have : i.val ∈ idx.take k ++ idx.drop k := by rw [hsplit]; exact hp.mem_iff.2 (List.mem_range.2 i.2)
      exact (List.mem_append.1 this).resolve_right hi
    rw [← hsplit, List.pairwise_append] at hs
    have := hs.2.2 _ hi' _ hj
    simpa using this

end CRO
end NiaPy
