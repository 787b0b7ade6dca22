/-
Lemmas for C153: the joint law of the returns of a vectorized evaluation, in the order in which their episodes start.
-/
import Verif.Eval.LemmasVectorRun

namespace Verif.Eval

open MeasureTheory ProbabilityTheory
open Verif.Vector (cnt anyOf getMask Masked midway freshLogic cnt_split cnt_congr cnt_false cnt_pos cnt_eq_zero getMask_fresh getMask_regular trajectory)
open Verif.Dataset (Row)

noncomputable section

variable {S X A P T U : Type}

/-- The state of a vectorized evaluation with, in addition, the number of episodes begun, the number of the episode that each environment is in, the return of this episode so
far, and the numbers and returns of the episodes that have ended. -/
structure Es (S P : Type) where
  base : Cs S P
  begun : ℕ
  idx : ℕ → ℕ
  cur : ℕ → ℝ
  done : Multiset (ℕ × ℝ)

def freshOf (n H N : ℕ) (c : Cs S P) (i : ℕ) : Bool := grant n H N c.run c.last c.totE i && c.last i

def idxOf (n H N : ℕ) (e : Es S P) (i : ℕ) : ℕ := if freshOf n H N e.base i then e.begun + cnt (freshOf n H N e.base) i else e.idx i

def kOf (e : Es S P) (i : ℕ) : ℕ := stepsOf (e.base.last i) (e.base.steps i)

def oneOf (m : Sim S X A P T U) (e : Es S P) (v : Draws U) (i : ℕ) : S × P × ℝ × Bool := one m (e.base.last i) (e.base.hid i) (e.base.ps i) (v i)

def cur0 (e : Es S P) (i : ℕ) : ℝ := if e.base.last i then 0 else e.cur i

def curOf (m : Sim S X A P T U) (γ : ℝ) (e : Es S P) (v : Draws U) (i : ℕ) : ℝ := cur0 e i + γ ^ kOf e i * (oneOf m e v i).2.2.1

def grantOf (n H N : ℕ) (e : Es S P) (i : ℕ) : Bool := grant n H N e.base.run e.base.last e.base.totE i

def stepE (m : Sim S X A P T U) (γ : ℝ) (n H N : ℕ) (e : Es S P) (v : Draws U) : Es S P :=
  { base := step m γ n H N e.base v
    begun := e.begun + cnt (freshOf n H N e.base) n
    idx := idxOf n H N e
    cur := curOf m γ e v
    done := e.done + ∑ i ∈ Finset.range n, if grantOf n H N e i && (step m γ n H N e.base v).last i then {(idxOf n H N e i, curOf m γ e v i)} else 0 }

def procE (m : Sim S X A P T U) (γ : ℝ) (n H N : ℕ) (e : Es S P) : ℕ → (ℕ → Draws U) → Es S P
  | 0, _ => e
  | t + 1, ω => if (procE m γ n H N e t ω).base.totE < N then stepE m γ n H N (procE m γ n H N e t ω) (ω t) else procE m γ n H N e t ω

variable {m : Sim S X A P T U} {γ : ℝ} {n H N : ℕ}

theorem procE_front (e : Es S P) (hc : e.base.totE < N) (ω : ℕ → Draws U) : ∀ t, procE m γ n H N e (t + 1) ω = procE m γ n H N (stepE m γ n H N e (ω 0)) t (shift ω)
  | 0 => by simp [procE, hc]
  | t + 1 => by
    have ih := procE_front e hc ω t
    rw [procE, ih]
    rfl

theorem procE_done (e : Es S P) (hc : ¬ e.base.totE < N) (ω : ℕ → Draws U) : ∀ t, procE m γ n H N e t ω = e
  | 0 => rfl
  | t + 1 => by rw [procE, procE_done e hc ω t, if_neg hc]

theorem procE_base (e : Es S P) (ω : ℕ → Draws U) : ∀ t, (procE m γ n H N e t ω).base = proc m γ n H N e.base t ω
  | 0 => rfl
  | t + 1 => by
    rw [procE, proc, ← procE_base e ω t]
    split <;> rfl

/-! ### The numbers of the episodes -/

def liveOf (e : Es S P) (i : ℕ) : Bool := e.base.run i && !e.base.last i

/-- The episodes begun are those that have ended and those that are running. -/
structure EInv (n H N : ℕ) (e : Es S P) : Prop where
  base : CInv n H N e.base
  begun : e.begun = e.base.totE + midway n e.base.run e.base.last
  nums : e.done.map Prod.fst + ∑ i ∈ Finset.range n, (if liveOf e i then {e.idx i} else 0) = Multiset.range e.begun

theorem fresh_range (f : ℕ → Bool) (b : ℕ) : ∀ n, Multiset.range b + ∑ i ∈ Finset.range n, (if f i then {b + cnt f i} else 0) = Multiset.range (b + cnt f n)
  | 0 => by simp [cnt]
  | n + 1 => by
    rw [Finset.sum_range_succ, ← add_assoc, fresh_range f b n]
    cases h : f n
    · simp [cnt, h]
    · simp only [cnt, h, if_true, ← add_assoc, Multiset.range_succ]
      rw [add_comm, Multiset.singleton_add]

theorem live_grant {e : Es S P} (hi : CInv n H N e.base) (i : ℕ) (hin : i < n) : (grantOf n H N e i && !e.base.last i) = liveOf e i := by
  unfold grantOf liveOf
  cases hl : e.base.last i
  · rw [(grant_spec hi).1 i hin hl]
  · simp

theorem cnt_grant {e : Es S P} (hi : CInv n H N e.base) : cnt (grantOf n H N e) n = midway n e.base.run e.base.last + cnt (freshOf n H N e.base) n := by
  have h1 := cnt_split (grantOf n H N e) e.base.last n
  have h2 : cnt (fun i => e.base.last i && grantOf n H N e i) n = cnt (freshOf n H N e.base) n := cnt_congr fun i _ => Bool.and_comm _ _
  have h3 : cnt (fun i => !e.base.last i && grantOf n H N e i) n = midway n e.base.run e.base.last := cnt_congr fun i hin => by
    have := live_grant hi i hin
    unfold liveOf at this
    rw [Bool.and_comm, this, Bool.and_comm]
  omega

theorem map_sum_fst (s : Finset ℕ) (f : ℕ → Multiset (ℕ × ℝ)) : (∑ i ∈ s, f i).map Prod.fst = ∑ i ∈ s, (f i).map Prod.fst :=
  map_sum (Multiset.mapAddMonoidHom Prod.fst) f s

theorem stepE_inv (hH : 1 ≤ H) {e : Es S P} (hi : EInv n H N e) (v : Draws U) : EInv n H N (stepE m γ n H N e v) := by
  have hb := step_inv m γ hH hi.base v
  have hcg := cnt_grant hi.base
  have hs := cnt_split (grantOf n H N e) (step m γ n H N e.base v).last n
  have h1 : (step m γ n H N e.base v).totE = e.base.totE + cnt (fun i => (step m γ n H N e.base v).last i && grantOf n H N e i) n := rfl
  have h2 : midway n (step m γ n H N e.base v).run (step m γ n H N e.base v).last = cnt (fun i => !(step m γ n H N e.base v).last i && grantOf n H N e i) n := rfl
  refine ⟨hb, ?_, ?_⟩
  · show e.begun + cnt (freshOf n H N e.base) n = (step m γ n H N e.base v).totE + midway n (step m γ n H N e.base v).run (step m γ n H N e.base v).last
    rw [hi.begun, h1, h2]
    omega
  · show (e.done + _).map Prod.fst + _ = Multiset.range (e.begun + cnt (freshOf n H N e.base) n)
    rw [Multiset.map_add, map_sum_fst, add_assoc, ← Finset.sum_add_distrib, ← fresh_range, ← hi.nums, add_assoc, ← Finset.sum_add_distrib]
    congr 1
    refine Finset.sum_congr rfl fun i hin => ?_
    have hin := Finset.mem_range.1 hin
    have hl := live_grant hi.base i hin
    have hlive : liveOf (stepE m γ n H N e v) i = (grantOf n H N e i && !(step m γ n H N e.base v).last i) := rfl
    have hidx : (stepE m γ n H N e v).idx i = idxOf n H N e i := rfl
    rw [hlive, hidx, ← hl]
    unfold idxOf freshOf
    have hgr : grant n H N e.base.run e.base.last e.base.totE i = grantOf n H N e i := rfl
    rw [hgr]
    cases grantOf n H N e i <;> cases e.base.last i <;> cases (step m γ n H N e.base v).last i <;> simp

theorem procE_inv (hH : 1 ≤ H) {e : Es S P} (hi : EInv n H N e) (ω : ℕ → Draws U) : ∀ t, EInv n H N (procE m γ n H N e t ω)
  | 0 => hi
  | t + 1 => by
    rw [procE]
    split
    · exact stepE_inv hH (procE_inv hH hi ω t) _
    · exact procE_inv hH hi ω t

/-- The return of episode number `j`. -/
def returnNo (M : Multiset (ℕ × ℝ)) (j : ℕ) : ℝ := ((M.filter fun p => p.1 = j).map Prod.snd).sum

theorem done_eq {M : Multiset (ℕ × ℝ)} (h : M.map Prod.fst = Multiset.range N) : M = (Multiset.range N).map fun j => (j, returnNo M j) := by
  have hnd : (M.map Prod.fst).Nodup := h ▸ Multiset.nodup_range N
  have key : ∀ p ∈ M, (p.1, returnNo M p.1) = p := by
    intro p hp
    obtain ⟨M', rfl⟩ := Multiset.exists_cons_of_mem hp
    rw [Multiset.map_cons, Multiset.nodup_cons] at hnd
    have h0 : M'.filter (fun q => q.1 = p.1) = 0 := by
      rw [Multiset.filter_eq_nil]
      intro q hq hqp
      exact hnd.1 (hqp ▸ Multiset.mem_map_of_mem Prod.fst hq)
    unfold returnNo
    rw [Multiset.filter_cons_of_pos (p := fun q : ℕ × ℝ => q.1 = p.1) _ rfl, h0]
    simp
  rw [← h, Multiset.map_map]
  conv_lhs => rw [← Multiset.map_id M]
  exact (Multiset.map_congr rfl fun p hp => (key p hp).symm)

/-! ### Measurability -/

section measure

variable [MeasurableSpace S] [MeasurableSpace X] [MeasurableSpace A] [MeasurableSpace P] [MeasurableSpace U] {ν : Measure U} [IsProbabilityMeasure ν] {C : ℝ}
variable {Ω : Type} [MeasurableSpace Ω]

/-- The product of the values that functions of the numbered episodes have. -/
def value (g : ℕ → ℝ → ENNReal) (M : Multiset (ℕ × ℝ)) : ENNReal := (M.map fun p => g p.1 p.2).prod

omit [MeasurableSpace S] [MeasurableSpace X] [MeasurableSpace A] [MeasurableSpace P] [MeasurableSpace U] in
theorem value_add (g : ℕ → ℝ → ENNReal) (M M' : Multiset (ℕ × ℝ)) : value g (M + M') = value g M * value g M' := by simp [value]

theorem value_sum (g : ℕ → ℝ → ENNReal) (f : ℕ → Multiset (ℕ × ℝ)) : ∀ n, value g (∑ i ∈ Finset.range n, f i) = ∏ i ∈ Finset.range n, value g (f i)
  | 0 => by simp [value]
  | n + 1 => by rw [Finset.sum_range_succ, Finset.prod_range_succ, value_add, value_sum g f n]

theorem returnNo_add (M M' : Multiset (ℕ × ℝ)) (j : ℕ) : returnNo (M + M') j = returnNo M j + returnNo M' j := by simp [returnNo]

theorem returnNo_sum (f : ℕ → Multiset (ℕ × ℝ)) (j : ℕ) : ∀ n, returnNo (∑ i ∈ Finset.range n, f i) j = ∑ i ∈ Finset.range n, returnNo (f i) j
  | 0 => by simp [returnNo]
  | n + 1 => by rw [Finset.sum_range_succ, Finset.sum_range_succ, returnNo_add, returnNo_sum f j n]

structure MeasE (σ : Ω → Es S P) : Prop where
  base : Meas fun ω => (σ ω).base
  begun : Measurable fun ω => (σ ω).begun
  idx : ∀ i, Measurable fun ω => (σ ω).idx i
  cur : ∀ i, Measurable fun ω => (σ ω).cur i
  value : ∀ g : ℕ → ℝ → ENNReal, (∀ j, Measurable (g j)) → Measurable fun ω => value g (σ ω).done
  returnNo : ∀ j, Measurable fun ω => returnNo (σ ω).done j

theorem measE_step (hm : m.Regular C) (n H N : ℕ) {σ : Ω → Es S P} (hσ : MeasE σ) {v : Ω → Draws U} (hv : Measurable v) : MeasE fun ω => stepE m γ n H N (σ ω) (v ω) := by
  have hb := hσ.base
  have hg : ∀ i, Measurable fun ω => grantOf n H N (σ ω) i := fun i => measurable_grant n H N i hb.run hb.last hb.totE
  have hf : ∀ i, Measurable fun ω => freshOf n H N (σ ω).base i := fun i => (measurable_of_countable fun x : Bool × Bool => x.1 && x.2).comp ((hg i).prodMk (hb.last i))
  have hidx : ∀ i, Measurable fun ω => idxOf n H N (σ ω) i := fun i =>
    (measurable_of_countable fun x : Bool × ℕ × ℕ × ℕ => if x.1 then x.2.1 + x.2.2.1 else x.2.2.2).comp
      ((hf i).prodMk (hσ.begun.prodMk ((measurable_cnt hf i).prodMk (hσ.idx i))))
  have hbase := meas_step (γ := γ) hm n H N hb hv
  have ho : ∀ i, Measurable fun ω => oneOf m (σ ω) (v ω) i := fun i => measurable_one hm (hb.last i) (hb.hid i) (hb.ps i) ((measurable_pi_apply i).comp hv)
  have hk : ∀ i, Measurable fun ω => kOf (σ ω) i := fun i => (measurable_of_countable fun x : Bool × ℕ => stepsOf x.1 x.2).comp ((hb.last i).prodMk (hb.steps i))
  have hcur : ∀ i, Measurable fun ω => curOf m γ (σ ω) (v ω) i := fun i =>
    (Measurable.ite (hb.last i (measurableSet_singleton true)) measurable_const (hσ.cur i)).add
      (((measurable_of_countable fun k : ℕ => γ ^ k).comp (hk i)).mul (ho i).snd.snd.fst)
  have hend : ∀ i, MeasurableSet {ω | (grantOf n H N (σ ω) i && (step m γ n H N (σ ω).base (v ω)).last i) = true} := fun i =>
    (measurable_of_countable fun x : Bool × Bool => x.1 && x.2).comp ((hg i).prodMk (hbase.last i)) (measurableSet_singleton true)
  refine ⟨hbase, ?_, hidx, hcur, fun g hgm => ?_, fun j => ?_⟩
  · exact (measurable_of_countable fun x : ℕ × ℕ => x.1 + x.2).comp (hσ.begun.prodMk (measurable_cnt hf n))
  · simp only [stepE, value_add, value_sum]
    refine (hσ.value g hgm).mul (Finset.measurable_prod _ fun i _ => ?_)
    have : (fun ω => Eval.value g (if grantOf n H N (σ ω) i && (step m γ n H N (σ ω).base (v ω)).last i then {(idxOf n H N (σ ω) i, curOf m γ (σ ω) (v ω) i)} else 0)) =
        fun ω => if (grantOf n H N (σ ω) i && (step m γ n H N (σ ω).base (v ω)).last i) = true then g (idxOf n H N (σ ω) i) (curOf m γ (σ ω) (v ω) i) else 1 := by
      funext ω
      split <;> simp [Eval.value]
    rw [this]
    refine Measurable.ite (hend i) ?_ measurable_const
    have hgj : Measurable fun x : ℝ × ℕ => g x.2 x.1 := measurable_from_prod_countable_left fun j => hgm j
    exact hgj.comp ((hcur i).prodMk (hidx i))
  · simp only [stepE, returnNo_add, returnNo_sum]
    refine (hσ.returnNo j).add (Finset.measurable_sum _ fun i _ => ?_)
    have : (fun ω => Eval.returnNo (if grantOf n H N (σ ω) i && (step m γ n H N (σ ω).base (v ω)).last i then {(idxOf n H N (σ ω) i, curOf m γ (σ ω) (v ω) i)} else 0) j) =
        fun ω => if (grantOf n H N (σ ω) i && (step m γ n H N (σ ω).base (v ω)).last i) = true then (if idxOf n H N (σ ω) i = j then curOf m γ (σ ω) (v ω) i else 0) else 0 := by
      funext ω
      split
      · by_cases h : idxOf n H N (σ ω) i = j <;> simp [Eval.returnNo, h, Multiset.filter_singleton]
      · simp [Eval.returnNo]
    rw [this]
    refine Measurable.ite (hend i) (Measurable.ite (hidx i (measurableSet_singleton j)) (hcur i) measurable_const) measurable_const

theorem measE_ite {σ τ : Ω → Es S P} (hσ : MeasE σ) (hτ : MeasE τ) {p : Ω → Prop} [DecidablePred p] (hp : MeasurableSet {ω | p ω}) : MeasE fun ω => if p ω then σ ω else τ ω := by
  have key : ∀ {α : Type} [MeasurableSpace α] (f : Es S P → α), (Measurable fun ω => f (σ ω)) → (Measurable fun ω => f (τ ω)) →
      Measurable fun ω => f (if p ω then σ ω else τ ω) := by
    intro α _ f h1 h2
    simp only [apply_ite f]
    exact Measurable.ite hp h1 h2
  refine ⟨?_, key (·.begun) hσ.begun hτ.begun, fun i => key (·.idx i) (hσ.idx i) (hτ.idx i), fun i => key (·.cur i) (hσ.cur i) (hτ.cur i),
    fun g hg => key (fun e => Eval.value g e.done) (hσ.value g hg) (hτ.value g hg), fun j => key (fun e => Eval.returnNo e.done j) (hσ.returnNo j) (hτ.returnNo j)⟩
  have := meas_ite hσ.base hτ.base hp
  simpa only [apply_ite Es.base] using this

theorem measE_proc (hm : m.Regular C) (n H N : ℕ) (e : Es S P) : ∀ t, MeasE fun ω : ℕ → Draws U => procE m γ n H N e t ω
  | 0 => by
    show MeasE fun _ => e
    refine ⟨?_, measurable_const, fun _ => measurable_const, fun _ => measurable_const, fun _ _ => measurable_const, fun _ => measurable_const⟩
    constructor <;> first | exact fun _ => measurable_const | exact measurable_const
  | t + 1 => by
    have ih := measE_proc hm n H N e t
    exact measE_ite (measE_step hm n H N ih (measurable_pi_apply t)) ih (ih.base.totE (Set.to_countable {x | x < N}).measurableSet)

/-! ### One environment -/

/-- What a function of the return of the rest of the episode is expected to be after one iteration. -/
def lookG (m : Sim S X A P T U) (ν : Measure U) [IsProbabilityMeasure ν] (γ : ℝ) (G : ℝ → ENNReal) (h : ℕ) (o : S × P × ℝ × Bool) : ENNReal :=
  if o.2.2.2 then G o.2.2.1 else ∫⁻ ω, G (o.2.2.1 + γ * (playFrom m γ h o.1 o.2.1 ω).1) ∂draws ν

theorem measurable_lookG (hm : m.Regular C) {G : ℝ → ENNReal} (hG : Measurable G) (h : ℕ) : Measurable (lookG m ν γ G h) := by
  have h1 : Measurable fun o : S × P × ℝ × Bool => o.2.2.2 := measurable_snd.snd.snd
  refine Measurable.ite (h1 (measurableSet_singleton true)) (hG.comp measurable_snd.snd.fst) ?_
  have h2 : Measurable fun x : (S × P × ℝ × Bool) × (ℕ → U) => G (x.1.2.2.1 + γ * (playFrom m γ h x.1.1 x.1.2.1 x.2).1) :=
    hG.comp (measurable_fst.snd.snd.fst.add (measurable_const.mul ((measurable_playFrom hm h).comp (measurable_fst.fst.prodMk (measurable_fst.snd.fst.prodMk measurable_snd))).fst))
  exact h2.lintegral_prod_right'

omit [IsProbabilityMeasure ν] in
theorem lintegral_quad [IsProbabilityMeasure ν] {f : U × U × U × U → ENNReal} (hf : Measurable f) : ∫⁻ x, f x ∂quad ν = ∫⁻ a, ∫⁻ b, ∫⁻ c, ∫⁻ d, f (a, b, c, d) ∂ν ∂ν ∂ν ∂ν := by
  unfold quad
  rw [lintegral_prod _ hf.aemeasurable]
  refine lintegral_congr fun a => ?_
  have h1 : Measurable fun y : U × U × U => f (a, y) := hf.comp (measurable_const.prodMk measurable_id)
  rw [lintegral_prod _ h1.aemeasurable]
  refine lintegral_congr fun b => ?_
  have h2 : Measurable fun y : U × U => f (a, b, y) := h1.comp (measurable_const.prodMk measurable_id)
  rw [lintegral_prod _ h2.aemeasurable]

theorem measurable_lookOne (hm : m.Regular C) {G : ℝ → ENNReal} (hG : Measurable G) (h : ℕ) (fresh : Bool) (s : S) (p : P) :
    Measurable fun v => lookG m ν γ G h (one m fresh s p v) :=
  (measurable_lookG hm hG h).comp (measurable_one hm (Ω := U × U × U × U) (f := fun _ => fresh) (s := fun _ => s) (p := fun _ => p) (v := id)
    measurable_const measurable_const measurable_const measurable_id)

theorem playFrom_look (hm : m.Regular C) {G : ℝ → ENNReal} (hG : Measurable G) (h : ℕ) (s : S) (p : P) :
    ∫⁻ ω, G (playFrom m γ (h + 1) s p ω).1 ∂draws ν = ∫⁻ u, ∫⁻ v, lookG m ν γ G h
      (m.next s (m.act (m.see s) p u).1 v, (m.act (m.see s) p u).2, m.reward s (m.act (m.see s) p u).1 (m.next s (m.act (m.see s) p u).1 v),
        m.absorbing s (m.act (m.see s) p u).1 (m.next s (m.act (m.see s) p u).1 v)) ∂ν ∂ν := by
  have hpl : ∀ h s p, Measurable fun ω : ℕ → U => (playFrom m γ h s p ω).1 := fun h s p =>
    ((measurable_playFrom hm h).comp (measurable_const.prodMk (measurable_const.prodMk measurable_id))).fst
  rw [lintegral_two (F := fun ω => G (playFrom m γ (h + 1) s p ω).1) (hG.comp (hpl _ s p))]
  refine lintegral_congr fun u => lintegral_congr fun v => ?_
  unfold lookG
  simp only [playFrom]
  simp only [cons_zero, shift_cons]
  have h1 : ∀ ω : ℕ → U, cons (u, cons (v, ω)) 1 = v := fun ω => rfl
  simp only [h1]
  split
  · simp
  · rfl

theorem look_running (hm : m.Regular C) {G : ℝ → ENNReal} (hG : Measurable G) (h : ℕ) (s : S) (p : P) :
    ∫⁻ v, lookG m ν γ G h (one m false s p v) ∂quad ν = ∫⁻ ω, G (playFrom m γ (h + 1) s p ω).1 ∂draws ν := by
  rw [lintegral_quad (measurable_lookOne hm hG h false s p), playFrom_look hm hG]
  simp only [one, Bool.false_eq_true, if_false, lintegral_const, measure_univ, mul_one]

theorem look_fresh (hm : m.Regular C) {G : ℝ → ENNReal} (hG : Measurable G) (h : ℕ) (s : S) (p : P) :
    ∫⁻ v, lookG m ν γ G h (one m true s p v) ∂quad ν = ∫⁻ ω, G (play m γ (h + 1) m.start ω).1 ∂draws ν := by
  rw [lintegral_quad (measurable_lookOne hm hG h true s p), lintegral_two (F := fun ω => G (play m γ (h + 1) m.start ω).1) (hG.comp (measurable_play hm (h + 1) hm.start).fst)]
  refine lintegral_congr fun u => lintegral_congr fun v => ?_
  have := playFrom_look (ν := ν) (γ := γ) hm hG h (m.start u) (m.begins (m.see (m.start u)) v).1
  simp only [one, if_true]
  exact this.symm

theorem lintegral_product {V : Type} [MeasurableSpace V] {κ : Measure V} [IsProbabilityMeasure κ] : ∀ (n : ℕ) (f : ℕ → V → ENNReal), (∀ i, Measurable (f i)) →
    ∫⁻ v, ∏ i ∈ Finset.range n, f i (v i) ∂draws κ = ∏ i ∈ Finset.range n, ∫⁻ x, f i x ∂κ
  | 0, f, _ => by simp
  | n + 1, f, hf => by
    have hm : ∀ (n : ℕ) (f : ℕ → V → ENNReal), (∀ i, Measurable (f i)) → Measurable fun v : ℕ → V => ∏ i ∈ Finset.range n, f i (v i) := fun n f hf =>
      Finset.measurable_prod _ fun i _ => (hf i).comp (measurable_pi_apply i)
    rw [lintegral_draws (hm (n + 1) f hf)]
    have h1 : ∀ (u : V) (ω : ℕ → V), ∏ i ∈ Finset.range (n + 1), f i (cons (u, ω) i) = f 0 u * ∏ i ∈ Finset.range n, f (i + 1) (ω i) := fun u ω => by
      rw [Finset.prod_range_succ', mul_comm]
      rfl
    simp only [h1]
    simp_rw [lintegral_const_mul _ (hm n (fun i => f (i + 1)) fun i => hf (i + 1))]
    rw [lintegral_mul_const _ (hf 0), lintegral_product n (fun i => f (i + 1)) fun i => hf (i + 1), Finset.prod_range_succ', mul_comm]

/-! ### All environments -/

/-- What `g` of the return of an episode is expected to be. -/
def one_of (m : Sim S X A P T U) (ν : Measure U) [IsProbabilityMeasure ν] (γ : ℝ) (H : ℕ) (g : ℕ → ℝ → ENNReal) (j : ℕ) : ENNReal := ∫⁻ ω, g j (play m γ H m.start ω).1 ∂draws ν

/-- What `g` of the return of the running episode of environment `i` is expected to be. -/
def run_of (m : Sim S X A P T U) (ν : Measure U) [IsProbabilityMeasure ν] (γ : ℝ) (H : ℕ) (g : ℕ → ℝ → ENNReal) (e : Es S P) (i : ℕ) : ENNReal :=
  ∫⁻ ω, g (e.idx i) (e.cur i + γ ^ e.base.steps i * (playFrom m γ (H - e.base.steps i) (e.base.hid i) (e.base.ps i) ω).1) ∂draws ν

/-- What the product of all the values is expected to be, given the present. -/
def expected (m : Sim S X A P T U) (ν : Measure U) [IsProbabilityMeasure ν] (γ : ℝ) (n H N : ℕ) (g : ℕ → ℝ → ENNReal) (e : Es S P) : ENNReal :=
  value g e.done * (∏ i ∈ Finset.range n, if liveOf e i then run_of m ν γ H g e i else 1) * ∏ j ∈ Finset.Ico e.begun N, one_of m ν γ H g j

omit [MeasurableSpace S] [MeasurableSpace P] in
theorem kOf_lt (hH : 1 ≤ H) {e : Es S P} (hi : CInv n H N e.base) (i : ℕ) (hin : i < n) (hg : grantOf n H N e i = true) : kOf e i < H := by
  unfold kOf stepsOf
  cases hl : e.base.last i
  · rw [grantOf, (grant_spec hi).1 i hin hl] at hg
    simpa using hi.lens i hin hg hl
  · simp; omega

omit [MeasurableSpace S] [MeasurableSpace X] [MeasurableSpace A] [MeasurableSpace P] in
theorem expected_step (hH : 1 ≤ H) (g : ℕ → ℝ → ENNReal) {e : Es S P} (hi : EInv n H N e) (v : Draws U) :
    expected m ν γ n H N g (stepE m γ n H N e v) = value g e.done *
      (∏ i ∈ Finset.range n, if grantOf n H N e i then lookG m ν γ (fun x => g (idxOf n H N e i) (cur0 e i + γ ^ kOf e i * x)) (H - kOf e i - 1) (oneOf m e v i) else 1) *
      ∏ j ∈ Finset.Ico (e.begun + cnt (freshOf n H N e.base) n) N, one_of m ν γ H g j := by
  unfold expected
  have hd : value g (stepE m γ n H N e v).done = value g e.done * ∏ i ∈ Finset.range n,
      (if grantOf n H N e i && (step m γ n H N e.base v).last i then g (idxOf n H N e i) (curOf m γ e v i) else 1) := by
    show value g (e.done + _) = _
    rw [value_add, value_sum]
    congr 1
    refine Finset.prod_congr rfl fun i _ => ?_
    split <;> simp [value]
  rw [hd, mul_assoc (value g e.done), ← Finset.prod_mul_distrib]
  congr 2
  refine Finset.prod_congr rfl fun i hin => ?_
  have hin := Finset.mem_range.1 hin
  have hlive : liveOf (stepE m γ n H N e v) i = (grantOf n H N e i && !(step m γ n H N e.base v).last i) := rfl
  rw [hlive]
  by_cases hg : grantOf n H N e i = true
  · have hgr : grant n H N e.base.run e.base.last e.base.totE i = true := hg
    have hk := kOf_lt hH hi.base i hin hg
    have hsteps : (stepE m γ n H N e v).base.steps i = kOf e i + 1 := by simp only [stepE, step, hgr, if_true, kOf]
    have hhid : (stepE m γ n H N e v).base.hid i = (oneOf m e v i).1 := by simp only [stepE, step, hgr, if_true, oneOf]
    have hps : (stepE m γ n H N e v).base.ps i = (oneOf m e v i).2.1 := by simp only [stepE, step, hgr, if_true, oneOf]
    have hlast : (step m γ n H N e.base v).last i = ((oneOf m e v i).2.2.2 || decide (H ≤ kOf e i + 1)) := by
      simp only [step, hgr, if_true, Bool.true_and, oneOf, kOf]
      rfl
    have hidx : (stepE m γ n H N e v).idx i = idxOf n H N e i := rfl
    have hcur : (stepE m γ n H N e v).cur i = cur0 e i + γ ^ kOf e i * (oneOf m e v i).2.2.1 := rfl
    simp only [run_of, hsteps, hhid, hps, hlast, hidx, hcur, hg, Bool.true_and, if_true, curOf, lookG]
    cases (oneOf m e v i).2.2.2
    · by_cases hh : H ≤ kOf e i + 1
      · have h0 : H - kOf e i - 1 = 0 := by omega
        simp [hh, h0, playFrom]
      · simp only [hh, decide_false, Bool.or_self, Bool.false_eq_true, if_false, Bool.not_false, if_true, one_mul]
        refine lintegral_congr fun ω => ?_
        rw [show H - (kOf e i + 1) = H - kOf e i - 1 by omega]
        congr 1
        ring
    · simp
  · simp [hg]

theorem fresh_prod (f : ℕ → Bool) (a : ℕ → ENNReal) (b : ℕ) : ∀ n, ∏ i ∈ Finset.range n, (if f i then a (b + cnt f i) else 1) = ∏ j ∈ Finset.Ico b (b + cnt f n), a j
  | 0 => by simp [cnt]
  | n + 1 => by
    rw [Finset.prod_range_succ, fresh_prod f a b n]
    cases h : f n
    · simp [cnt, h]
    · simp only [cnt, h, if_true, ← add_assoc]
      rw [Finset.prod_Ico_succ_top (by omega)]

theorem expected_mean (hm : m.Regular C) (hH : 1 ≤ H) {g : ℕ → ℝ → ENNReal} (hgm : ∀ j, Measurable (g j)) {e : Es S P} (hi : EInv n H N e) :
    ∫⁻ v, expected m ν γ n H N g (stepE m γ n H N e v) ∂draws (quad ν) = expected m ν γ n H N g e := by
  have hG : ∀ i, Measurable fun x => g (idxOf n H N e i) (cur0 e i + γ ^ kOf e i * x) := fun i => (hgm _).comp (measurable_const.add (measurable_const.mul measurable_id))
  have hf : ∀ i, Measurable fun x : U × U × U × U => if grantOf n H N e i then
      lookG m ν γ (fun x => g (idxOf n H N e i) (cur0 e i + γ ^ kOf e i * x)) (H - kOf e i - 1) (one m (e.base.last i) (e.base.hid i) (e.base.ps i) x) else 1 := fun i => by
    split
    · exact measurable_lookOne hm (hG i) _ _ _ _
    · exact measurable_const
  have hprod := lintegral_product (κ := quad ν) n _ hf
  have hmeas : Measurable fun v : Draws U => ∏ i ∈ Finset.range n, if grantOf n H N e i then
      lookG m ν γ (fun x => g (idxOf n H N e i) (cur0 e i + γ ^ kOf e i * x)) (H - kOf e i - 1) (one m (e.base.last i) (e.base.hid i) (e.base.ps i) (v i)) else 1 :=
    Finset.measurable_prod _ fun i _ => (hf i).comp (measurable_pi_apply i)
  simp only [expected_step hH g hi, oneOf]
  rw [lintegral_mul_const _ (hmeas.const_mul _), lintegral_const_mul _ hmeas, hprod]
  unfold expected
  have hle : e.begun + cnt (freshOf n H N e.base) n ≤ N := by
    have h1 := hi.begun
    have h2 : e.base.totE + cnt (grantOf n H N e) n ≤ N := (grant_spec hi.base).2
    have h3 := cnt_grant hi.base
    omega
  rw [← Finset.prod_Ico_consecutive _ (Nat.le_add_right e.begun (cnt (freshOf n H N e.base) n)) hle, ← fresh_prod, mul_assoc, mul_assoc, ← mul_assoc (∏ i ∈ Finset.range n, _)
    (∏ i ∈ Finset.range n, _), ← Finset.prod_mul_distrib]
  congr 2
  refine Finset.prod_congr rfl fun i hin => ?_
  have hin := Finset.mem_range.1 hin
  rw [← live_grant hi.base i hin]
  cases hg : grantOf n H N e i
  · have : freshOf n H N e.base i = false := by
      have hgr : grant n H N e.base.run e.base.last e.base.totE i = false := hg
      simp [freshOf, hgr]
    simp [this]
  · have hgr : grant n H N e.base.run e.base.last e.base.totE i = true := hg
    have hk := kOf_lt hH hi.base i hin hg
    have hH1 : H - kOf e i - 1 + 1 = H - kOf e i := by omega
    cases hl : e.base.last i
    · have hfr : freshOf n H N e.base i = false := by simp [freshOf, hl]
      have hG' := hG i
      have hk0 : kOf e i = e.base.steps i := by simp [kOf, hl, stepsOf]
      simp only [if_true, hfr, Bool.not_false, Bool.and_self, Bool.false_eq_true, if_false, mul_one]
      rw [look_running hm hG', hH1]
      unfold run_of
      simp only [idxOf, hfr, Bool.false_eq_true, if_false, cur0, hl, hk0]
    · have hfr : freshOf n H N e.base i = true := by simp [freshOf, hgr, hl]
      have hk0 : kOf e i = 0 := by simp [kOf, hl, stepsOf]
      simp only [if_true, hfr, Bool.not_true, Bool.and_false, Bool.false_eq_true, if_false, one_mul]
      rw [look_fresh hm (hG i), hH1]
      unfold one_of
      simp only [idxOf, hfr, if_true, cur0, hl, hk0, pow_zero, one_mul, zero_add, Nat.sub_zero]

/-- The product of the values of all the returns, when all runs end within `t` iterations. -/
theorem procE_mean (hm : m.Regular C) (hH : 1 ≤ H) {g : ℕ → ℝ → ENNReal} (hgm : ∀ j, Measurable (g j)) : ∀ (t : ℕ) (e : Es S P), EInv n H N e →
    (∀ ω : ℕ → Draws U, ¬ (procE m γ n H N e t ω).base.totE < N) →
    ∫⁻ ω, value g (procE m γ n H N e t ω).done ∂draws (draws (quad ν)) = expected m ν γ n H N g e := by
  have hstop : ∀ e : Es S P, EInv n H N e → ¬ e.base.totE < N → expected m ν γ n H N g e = value g e.done := by
    intro e hi hc
    have h1 := hi.begun
    have h2 := hi.base.total
    have hmid : midway n e.base.run e.base.last = 0 := by omega
    have hlive : ∀ i ∈ Finset.range n, (if liveOf e i then run_of m ν γ H g e i else 1) = 1 := fun i hin => by
      have := cnt_eq_zero hmid i (Finset.mem_range.1 hin)
      rw [liveOf, Bool.and_comm, this]
      simp
    unfold expected
    rw [Finset.prod_congr rfl hlive, Finset.Ico_eq_empty (by omega)]
    simp
  intro t
  induction t with
  | zero =>
    intro e hi h
    have hne : Nonempty U := by
      by_contra h
      have := measure_univ (μ := ν)
      rw [not_nonempty_iff] at h
      simp [Set.univ_eq_empty_iff.2 h] at this
    have := h fun _ _ => (hne.some, hne.some, hne.some, hne.some)
    rw [hstop e hi this]
    simp [procE]
  | succ t ih =>
    intro e hi h
    by_cases hc : e.base.totE < N
    · rw [lintegral_draws (F := fun ω => value g (procE m γ n H N e (t + 1) ω).done) ((measE_proc hm n H N e (t + 1)).value g hgm)]
      simp only [procE_front e hc, cons_zero, shift_cons]
      simp only [fun v => ih (stepE m γ n H N e v) (stepE_inv hH hi v) fun ω => by
        have := h (cons (v, ω))
        rw [procE_front e hc, cons_zero, shift_cons] at this
        exact this]
      exact expected_mean hm hH hgm hi
    · simp only [procE_done e hc]
      rw [hstop e hi hc]
      simp

end measure

end

end Verif.Eval
