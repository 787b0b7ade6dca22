/-
Model of the PyBullet environments: /repo/mushroom_rl/environments/pybullet.py and
/repo/mushroom_rl/utils/pybullet/{index_map,joints_helper,contacts,observation}.py.

The simulator is an argument: what it reports about bodies, links, joints and contacts, and how it moves.
-/
import Mathlib.Data.Real.Basic
import Mathlib.Data.List.Basic
import Mathlib.Logic.Function.Basic

namespace Verif.Wrap.Bullet

/-- What `getJointInfo` says: entries 1, 2, 8-12. -/
structure Joint where
  name : String
  fixed : Bool
  low : ℝ
  high : ℝ
  maxForce : ℝ
  maxVel : ℝ
  link : String

/-- The loaded models: name, identifier and joints. -/
abbrev Models := List (String × ℕ × List Joint)

/-- `self._model_map[model_name] = model_id` (with the joints of the model): a name that is used again replaces the earlier model, at its
place. pybullet.py L202-205. -/
def putModel (l : Models) (m : String × ℕ × List Joint) : Models :=
  if m.1 ∈ l.map Prod.fst then l.map (fun x => if x.1 = m.1 then m else x) else l ++ [m]

/-- `_model_map` after the models have been loaded. pybullet.py L201-206. -/
def dict (models : Models) : Models := models.foldl putModel []

/-- `model_map[name]`. -/
def modelMap (models : Models) (name : String) : Option ℕ := ((dict models).lookup name).map Prod.fst

/-- The joints of the models, in the order in which they are visited. index_map.py L104-106. -/
def allJoints (models : Models) : List ((ℕ × ℕ) × Joint) :=
  ((dict models).map (fun m => m.2.2.zipIdx.map (fun j => ((m.2.1, j.2), j.1)))).flatten

/-- `joint_map`. index_map.py L103-110. -/
def jointMap (models : Models) : String → Option (ℕ × ℕ) :=
  (allJoints models).foldl (fun f j => if j.2.fixed then f else Function.update f j.2.name (some j.1)) (fun _ => none)

/-- `link_map`. index_map.py L111-112. -/
def linkMap (models : Models) : String → Option (ℕ × ℕ) :=
  (allJoints models).foldl (fun f j => Function.update f j.2.link (some j.1)) (fun _ => none)

/-- `getJointInfo`. -/
def jointInfo (models : Models) (id : ℕ × ℕ) : Option Joint := (allJoints models).lookup id

/-! ### Contacts -/

/-- `_order_contact`. contacts.py L77-90. -/
def order (m1 m2 : ℕ) (l1 l2 : ℤ) : ℕ × ℕ × ℤ × ℤ := if m1 < m2 then (m1, m2, l1, l2) else (m2, m1, l2, l1)

/-- `_get_link_ids`. contacts.py L70-75. -/
def linkIds (models : Models) (name : String) : Option (ℕ × ℤ) :=
  match linkMap models name with
  | some (m, l) => some (m, (l : ℤ))
  | none => (modelMap models name).map (fun m => (m, -1))

/-- `_contact_list`: pairs of models with pairs of links. -/
abbrev ContactList := List ((ℕ × ℕ) × List (ℤ × ℤ))

/-- The loop of `_add_contact`: `none` if nothing was appended. contacts.py L39-52. -/
def addLinks (models : ℕ × ℕ) (links : ℤ × ℤ) : ContactList → Option ContactList
  | [] => none
  | (ms, ls) :: rest =>
    if ms = models ∧ links ∉ ls then some ((ms, ls ++ [links]) :: rest)
    else (addLinks models links rest).map (fun r => (ms, ls) :: r)

/-- `_add_contact`. contacts.py L36-56. -/
def addContact (l : ContactList) (c : ℕ × ℕ × ℤ × ℤ) : ContactList :=
  let o := order c.1 c.2.1 c.2.2.1 c.2.2.2
  (addLinks (o.1, o.2.1) (o.2.2.1, o.2.2.2) l).getD (l ++ [((o.1, o.2.1), [(o.2.2.1, o.2.2.2)])])

/-- The four identifiers of a contact `name_1<->name_2`; here the two names are already separated. contacts.py L10-15. -/
def contactIds (models : Models) (c : String × String) : Option (ℕ × ℕ × ℤ × ℤ) :=
  (linkIds models c.1).bind (fun a => (linkIds models c.2).map (fun b => (a.1, b.1, a.2, b.2)))

/-- `compute_contacts` followed by `get_contact(...) is not None`: the entries of all contacts are emptied, and then those for which there are
contact points are filled. `points a b` is `getContactPoints(a, b)`, of which entries 3 and 4 are used. contacts.py L18-34, L58-68. -/
def computed (list : ContactList) (points : ℕ → ℕ → List (ℤ × ℤ)) : ℕ × ℕ × ℤ × ℤ → Bool :=
  list.foldl (fun f c =>
    (points c.1.1 c.1.2).foldl (fun f p => if p ∈ c.2 then Function.update f (c.1.1, c.1.2, p.1, p.2) true else f) f) (fun _ => false)

/-- The flag of a contact. contacts.py L32-34, index_map.py L74-77. -/
def contactFlag (models : Models) (contacts : List (String × String)) (points : ℕ → ℕ → List (ℤ × ℤ)) (c : String × String) : Option Bool :=
  (contacts.mapM (contactIds models)).bind (fun ids =>
    (contactIds models c).map (fun i => computed (ids.foldl addContact []) points (order i.1 i.2.1 i.2.2.1 i.2.2.2)))

/-! ### Observations -/

/-- `PyBulletObservationType`. observation.py L4-18. -/
inductive Ty
  | bodyPos | bodyLinVel | bodyAngVel | jointPos | jointVel | linkPos | linkLinVel | linkAngVel | contactFlag
deriving DecidableEq

/-- What the simulator reports: `getBasePositionAndOrientation`, `getBaseVelocity`, `getLinkState`, `getJointState`. Positions and velocities
have three components, orientations four. -/
structure Sim where
  basePos : ℕ → Fin 3 → ℝ
  baseRot : ℕ → Fin 4 → ℝ
  baseLin : ℕ → Fin 3 → ℝ
  baseAng : ℕ → Fin 3 → ℝ
  linkPos : ℕ × ℕ → Fin 3 → ℝ
  linkRot : ℕ × ℕ → Fin 4 → ℝ
  linkLin : ℕ × ℕ → Fin 3 → ℝ
  linkAng : ℕ × ℕ → Fin 3 → ℝ
  jointPos : ℕ × ℕ → ℝ
  jointVel : ℕ × ℕ → ℝ
  contact : String → Option Bool

/-- One entry of the specification read in `create_sim_state`; `none` for an unknown name. index_map.py L39-77. -/
def read (models : Models) (s : Sim) (name : String) : Ty → Option (List ℝ)
  | .bodyPos => (modelMap models name).map (fun m => List.ofFn (s.basePos m) ++ List.ofFn (s.baseRot m))
  | .bodyLinVel => (modelMap models name).map (fun m => List.ofFn (s.baseLin m))
  | .bodyAngVel => (modelMap models name).map (fun m => List.ofFn (s.baseAng m))
  | .linkPos => (linkMap models name).map (fun l => List.ofFn (s.linkPos l) ++ List.ofFn (s.linkRot l))
  | .linkLinVel => (linkMap models name).map (fun l => List.ofFn (s.linkLin l))
  | .linkAngVel => (linkMap models name).map (fun l => List.ofFn (s.linkAng l))
  | .jointPos => (jointMap models name).map (fun j => [s.jointPos j])
  | .jointVel => (jointMap models name).map (fun j => [s.jointVel j])
  | .contactFlag => (s.contact name).map (fun b => [if b then 1 else 0])

/-- `create_sim_state`. index_map.py L33-79. -/
def create (models : Models) (s : Sim) (spec : List (String × Ty)) : Option (List ℝ) :=
  spec.foldlM (fun acc e => (read models s e.1 e.2).map (fun x => acc ++ x)) []

/-- A lower and an upper limit; `none` for infinite ones. -/
abbrev Lim := Option ℝ × Option ℝ

/-- The limits of one entry. index_map.py L145-173. -/
def limit (models : Models) (name : String) : Ty → Option (List Lim)
  | .bodyPos => some (List.replicate 7 (none, none))
  | .bodyLinVel => some (List.replicate 3 (none, none))
  | .bodyAngVel => some (List.replicate 3 (none, none))
  | .linkPos => some (List.replicate 7 (none, none))
  | .linkLinVel => some (List.replicate 3 (none, none))
  | .linkAngVel => some (List.replicate 3 (none, none))
  | .jointPos => (jointMap models name).bind (fun j => (jointInfo models j).map (fun i => [(some i.low, some i.high)]))
  | .jointVel => (jointMap models name).bind (fun j => (jointInfo models j).map (fun i => [(some (-i.maxVel), some i.maxVel)]))
  | .contactFlag => some [(some 0, some 1)]

/-- The limits and `observation_indices_map`. -/
structure Index where
  limits : List Lim
  indices : String → Ty → Option (List ℕ)

/-- One entry of `_process_observations` and `_add_observation_index`. index_map.py L143-183. -/
def addIndex (models : Models) (x : Index) (e : String × Ty) : Option Index :=
  (limit models e.1 e.2).map (fun l =>
    let limits := x.limits ++ l
    ⟨limits, fun n t => if n = e.1 ∧ t = e.2 then some (List.range' x.limits.length (limits.length - x.limits.length)) else x.indices n t⟩)

/-- `_process_observations`. index_map.py L139-177. -/
def process (models : Models) (spec : List (String × Ty)) : Option Index :=
  spec.foldlM (addIndex models) ⟨[], fun _ _ => none⟩

/-- `obs[indices]`. -/
def take {α : Type} (obs : List α) (indices : List ℕ) : Option (List α) := indices.mapM (fun i => obs[i]?)

/-- `get_sim_state`. pybullet.py L143-158. -/
def getSimState (x : Index) (obs : List ℝ) (name : String) (t : Ty) : Option (List ℝ) := (x.indices name t).bind (take obs)

/-- The indices that `JointsHelper` stores for joints of a type. joints_helper.py L13-23. -/
def jointIndexes (x : Index) (spec : List (String × Ty)) (t : Ty) : Option (List ℕ) :=
  ((spec.filter (fun e => decide (e.2 = t))).mapM (fun e => (x.indices e.1 t).bind List.head?))

/-- `positions` and `velocities`. joints_helper.py L34-38. -/
def jointValues (x : Index) (spec : List (String × Ty)) (t : Ty) (obs : List ℝ) : Option (List ℝ) := (jointIndexes x spec t).bind (take obs)

/-! ### Actions -/

/-- Control modes. -/
inductive Mode
  | position | velocity | torque
deriving DecidableEq

/-- `action_data`: names that are not joints are left out. index_map.py L115-118. -/
def actionData (models : Models) (spec : List (String × Mode)) : List ((ℕ × ℕ) × Mode) :=
  spec.filterMap (fun e => (jointMap models e.1).map (fun j => (j, e.2)))

/-- The limits of actions. index_map.py L120-137. -/
def actionLimits (models : Models) (spec : List (String × Mode)) : Option (List (ℝ × ℝ)) :=
  (actionData models spec).mapM (fun d => (jointInfo models d.1).map (fun i =>
    match d.2 with
    | .position => (i.low, i.high)
    | .velocity => (-i.maxVel, i.maxVel)
    | .torque => (-i.maxForce, i.maxForce)))

/-- What `setJointMotorControl2` receives. -/
inductive Cmd
  | position (target maxVel force : ℝ)
  | velocity (target maxVel force : ℝ)
  | torque (force : ℝ)

/-- The command for one joint. index_map.py L85-95. -/
def command (i : Joint) (u : ℝ) : Mode → Cmd
  | .position => .position u i.maxVel i.maxForce
  | .velocity => .velocity u i.maxVel i.maxForce
  | .torque => .torque u

/-- `apply_control`: the last command of every joint. index_map.py L81-98. -/
def applyControl (models : Models) (spec : List (String × Mode)) (action : List ℝ) (ctrl : ℕ × ℕ → Option Cmd) : Option (ℕ × ℕ → Option Cmd) :=
  (actionData models spec).zipIdx.foldlM (fun c d => (action[d.2]?).bind (fun u => (jointInfo models d.1.1).map (fun i =>
    Function.update c d.1.1 (some (command i u d.1.2))))) ctrl

/-! ### Steps -/

/-- The environment: the simulator with its states, and the methods that can be overridden. -/
structure Env (W Act Obs Out : Type) where
  initial : W
  setup : Option Obs → W → W
  observe : W → Obs
  out : Obs → Out
  preprocess : Act → Act
  compute : Obs → Act → Act
  control : Act → W → W
  advance : W → W
  reward : Obs → Act → Obs → Bool → ℝ
  absorbing : Obs → Bool
  nIntermediate : ℕ

variable {W Act Obs Out : Type}

/-- The simulator and `self._state`. -/
structure St (W Obs : Type) where
  world : W
  state : Obs

/-- `reset`. pybullet.py L90-96. -/
def Env.reset (e : Env W Act Obs Out) (x : Option Obs) : St W Obs × Out :=
  let w := e.setup x e.initial
  (⟨w, e.observe w⟩, e.out (e.observe w))

/-- The loop of `step`. pybullet.py L116-127. -/
def Env.loop (e : Env W Act Obs Out) (action : Act) : ℕ → W × Obs → W × Obs
  | 0, s => s
  | n + 1, s =>
    let w := e.advance (e.control (e.compute s.2 action) s.1)
    e.loop action n (w, e.observe w)

/-- `step`. pybullet.py L109-138. -/
def Env.step (e : Env W Act Obs Out) (s : St W Obs) (action : Act) : St W Obs × Out × ℝ × Bool :=
  let action := e.preprocess action
  let r := e.loop action e.nIntermediate (s.world, s.state)
  let absorbing := e.absorbing r.2
  (⟨r.1, r.2⟩, e.out r.2, e.reward s.state action r.2 absorbing, absorbing)

end Verif.Wrap.Bullet
