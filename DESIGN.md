# Formal model of MushroomRL in Lean 4

Source: `/repo` (MushroomRL at a pinned commit, Python). Nothing of it is executed here; the model is a
hand-written transcription, function by function, and every definition of the model cites the file and lines it
transcribes. Properties: `properties.jsonl`. Theorem names and status: `MANIFEST.json`. Wrong programs the theorems
were tested against: `seeded/LOG.jsonl`.

## Layout

* `lean/Verif/<Area>/Model*.lean` – the code, transcribed (computable where possible).
* `lean/Verif/<Area>/Spec*.lean` – small independent specification vocabulary (no reference to the model).
* `lean/Verif/<Area>/Lemmas*.lean` and others – helper lemmas.
* `lean/Verif/<Area>/Props*.lean` – the property theorems `Cxx_...`, each with an `example` showing that a concrete,
  non-trivial case meets its hypotheses.

Names: `Cxx_..._partial` proves part of a property and says what is missing. `Cxx_..._refuted` is a machine-checked
counterexample: the code as it is violates the property as stated. A property with a `_refuted` theorem has the status
"partial" and its `_partial` theorem gives the largest class of inputs found for which it holds.

## How things are modelled

* A Python method that mutates `self` becomes a function returning the new state. Where aliasing between arrays is
  the point of a property (views, in-place operators), the memory is modelled explicitly: arrays live in a store and
  variables hold references, or the function also returns the content of the caller's array after the call.
* Exceptions (`assert`, `IndexError`, ...) are values: `Option` / `Except`. Infinite recursion is a fuel result
  (`none` for every fuel). While loops are relations or functions with a proof that they end.
* Random choices are arguments: a theorem quantifies over all the outcomes the generator could give. Where the
  claim is about probabilities, the finite distribution itself is modelled.
* Environments, policies, regressors and user callbacks are arbitrary functions (parameters), so theorems hold for
  all of them. Deep networks are arbitrary functions of a weight vector.
* `float` is idealised as an element of an arbitrary (linearly ordered) field, or of ℝ where analysis is needed.
  Rounding, overflow, signed zeros and infinities are NOT modelled. A division by zero that matters is `none`.
  `int` is unbounded `Nat`/`Int`, as in Python.
* numpy/torch arrays are lists, functions on finite index types, or matrices of Mathlib. Dtypes and devices are not
  modelled.

## Trusted base

* Lean 4.33.0's kernel, and Mathlib as installed. Axioms: only `propext`, `Classical.choice`, `Quot.sound` (table
  below). No axioms of our own, no `sorry`, no `native_decide`/`bv_decide`.
* The transcription itself (Python read by hand), the idealisations above, and the assumed behaviour of numpy /
  torch / scipy primitives named in the comments of the models (slicing, `argwhere`, `concatenate`, in-place
  operators sharing storage, `detach` sharing storage, `brentq` returning a root, ...).
* The English reading of the theorem statements.

### Axioms of the theorems

From `#print axioms` for the 1260 theorems named in MANIFEST.json. Nothing else occurs.

| axioms | theorems |
|---|---|
| `Classical.choice`, `Quot.sound`, `propext` | 1092 |
| `Quot.sound`, `propext` | 91 |
| `propext` | 58 |
| none | 18 |
| `Quot.sound` | 1 |

The theorems that do not use all three of `propext`, `Classical.choice` and `Quot.sound`:

* no axioms: `Core.C03_preprocess_order`, `Dataset.C08_compute_J_empty`, `Explore.C102_agent_refuted`, `Features.Tensor.C113_functional`, `Serialization.Table.C115_lossy_classes`, `Serialization.Table.C115_lossy_unread`, `Memory.C116_prioritized_partial`, `Misc.Callbacks.C117_clean_refuted`, `Record.C126_vector_mask_refuted`, `Vector.Isaac.C127_step_refuted`, `Wrap.Stack.C131_gym_render_refuted`, `Misc.Config.C139_refuted`, `Misc.Config.C139_fit_refuted`, `View.C156_size_refuted`, `View.C156_new_model_refuted`, `Finite.C45_start_refuted`, `Core.C66_agentPreprocess_order`, `Dataset.C11_list_add_refuted`
* `Quot.sound`: `Dataset.C11_empty_empty_raises`
* `Quot.sound`, `propext`: `Core.C03_episode_length`, `Core.C06_rows_le_capacity`, `Dataset.C07_append_clear`, `Dataset.C07_new`, `Dataset.C07_overflow_raises`, `Dataset.C07_getitem`, `Dataset.C07_slice`, `Dataset.episodes_exist_unique`, `Dataset.C09_n_episodes`, `Misc.C100_shared_partial`, `Explore.C101_deterministic`, `Explore.C102_duration_refuted`, `Wrap.C104_collision`, `Wrap.C106_dm_refuted`, `Wrap.C106_minigrid_refuted`, `Wrap.C107_minigrid_shape`, `Wrap.Space.C109_names`, `Dataset.C11_add_partial`, `Search.Torch.C112_squeeze_refuted`, `Search.Torch.C112_squeeze_partial`, `Hockey.C118_flags_double_partial`, `Dataset.C12_collect_content`, `Dataset.C12_collect_partial`, `Approx.Reg.C121_select`, `Approx.Reg.C121_members_partial`, `Backend.C123_flatten`, `DQN.Nets.C124_short_datasets_refuted`, `Envs.Reset.C125_lqr_dimensions`, `Record.C126_vector_step_partial`, `Vector.Isaac.C127_reset_partial`, `Vector.Isaac.C127_reset_refuted`, `Vector.Isaac.C127_given_refuted`, `Render.C128_grid_start`, `Wrap.Stack.C131_wrappers_partial`, `Wrap.Stack.C131_wrappers_refuted`, `Wrap.Stack.C131_short_args_refuted`, `Wrap.Stack.C131_render_partial`, `Wrap.Stack.C131_render_refuted`, `Wrap.Stack.C131_rearrange_partial`, `Dataset.Object.C133_history`, `Dataset.Object.C133_take`, `Dataset.Object.C133_list_policy_refuted`, `Vector.C133_one_environment_refuted`, `Serialization.Links.C134_learns_partial`, `Serialization.Links.C134_copdac_refuted`, `Serialization.Links.C134_eppo_refuted`, `Serialization.Links.C134_mellowmax_refuted`, `Serialization.Links.C134_optimizer_state`, `Serialization.Links.C134_optimizer_steps`, `Misc.Config.C139_models`, `Misc.Config.C139_same_kind`, `Misc.Config.C139_independent_partial`, `Misc.Config.C139_distinct_partial`, `Misc.Config.C139_dictionary`, `Misc.Config.C139_maxmin`, `System.Pre.C144_once`, `System.Pre.C144_calls`, `System.Pre.C144_vector_twice_refuted`, `View.C155_groups_refuted`, `View.C156_upright`, `View.C156_backend`, `View.C156_image_partial`, `View.C156_colours`, `Memory.C16_consecutive_refuted`, `Core.C168_observers`, `Memory.C17_dataset_index_refuted`, `Vector.Callbacks.C175_observers`, `Vector.Callbacks.C175_calls`, `Misc.Crash.C183_append_refuted`, `Serialization.C20_replay_memory_refuted`, `Serialization.C20_replay_memory_reset`, `Vector.C23_evaluate_partial`, `Vector.C23_refuted`, `Misc.C62_window_partial`, `Misc.C62_window_refuted`, `Misc.C63_index_map_refuted`, `Misc.C63_joints_refuted`, `Misc.C63_limits_refuted`, `Vector.Pipes.C64_terminates`, `Core.C66_actions`, `Core.C67_thetas`, `Core.C68_callbacks_fit`, `Dataset.C09_list_n_episodes_partial`, `Vector.C70_episodes_continue`, `ValueFn.C76_first_steps`, `Stats.C78_window`, `Search.C99_weights`, `Search.C99_draw_partial`, `Search.C99_resize_refuted`, `Search.C99_default_refuted`, `Search.C99_number_refuted`
* `propext`: `Core.C05_learn_rejects`, `Core.C05_evaluate_rejects`, `Dataset.C08_compute_J`, `Dataset.C10_get_init_states`, `Misc.C100_parse_refuted`, `Misc.C100_clash_refuted`, `Misc.C100_keyless_refuted`, `Misc.C100_copy_partial`, `Misc.C100_copy_refuted`, `Misc.C100_add_refuted`, `Misc.C100_shared_refuted`, `Explore.C102_agent_partial`, `Wrap.C104_force_partial`, `Wrap.C106_horizon`, `Dataset.C11_episode_count`, `Dataset.C11_empty_left_refuted`, `Search.Torch.C112_shapes_partial`, `Search.Torch.C112_shapes_refuted`, `Memory.C116_replay_partial`, `Memory.C116_replay_refuted`, `Misc.Callbacks.C117_clean_partial`, `Hockey.C118_get_ee_refuted`, `Dataset.C12_refuted`, `Approx.Reg.C121_iteration_refuted`, `Backend.C123_device`, `Envs.Reset.C125_lqr_dimensions_refuted`, `Record.C126_vector_picture_refuted`, `Vector.Isaac.C127_step_partial`, `Memory.C13_zero_steps_raises`, `Wrap.Stack.C131_gym_render_partial`, `Dataset.Object.C133_from_array_partial`, `Dataset.Object.C133_view_thetas_refuted`, `Dataset.Object.C133_index_refuted`, `Dataset.Object.C133_from_array_refuted`, `Misc.Config.C139_fit_partial`, `Vector.Pipes.C143_simulators`, `Vector.Pipes.C143_seed_nothing_refuted`, `System.Pre.C144_vector_none`, `Memory.C15_caller_dataset_partial`, `Memory.C15_caller_dataset_refuted`, `View.C156_bullet_refuted`, `View.C156_bullet_pixels_refuted`, `View.C156_image_refuted`, `Memory.C16_stateless_refuted`, `Core.C170_learn_steps_refuted`, `Core.C170_learn_episodes_refuted`, `Vector.Callbacks.C175_collect_refuted`, `Vector.Callbacks.C175_step_refuted`, `Core.C182_learn`, `Core.C182_evaluate`, `Misc.Crash.C183_loaded_refuted`, `Serialization.C20_unknown_method_raises`, `Vector.C21_blocks_closed`, `Vector.C24_duplicate_refuted`, `Vector.C24_lost_refuted`, `Vector.C24_overflow_refuted`, `Core.C68_callback_step`, `Dataset.C09_list_n_episodes_refuted`

All other theorems depend on exactly these three.

## What is modelled, what is not, and what was found

Paths are relative to `mushroom_rl/`. "Findings" are behaviours of the code that the proofs brought to light; those marked
(R) are machine-checked `_refuted` theorems or theorems that an exception is raised, the others are remarks.

### Core (`core/core.py`, `core/_impl/core_logic.py`, `core/agent.py`)
Modelled: `_run`, `_step`, `_reset`, `learn`, `evaluate`, the counters and conditions of `CoreLogic`, `draw_action` with
`next_action` and policy states, agent preprocessors, policy parameters of episodic agents, callbacks, sizes of the
preallocated dataset. The whole is a state machine over an arbitrary world. Not modelled: rendering, recording, progress
bars, conversion between backends, step and episode infos.
Method: invariants by induction over the iterations of the loop, termination with a measure, exact counts.

### Dataset (`core/dataset.py`, `core/_impl/{numpy,torch,list}_dataset.py`, `utils/callbacks/collect_dataset.py`)
Modelled: storage with logical length, indexing, slices, views, `append`, `clear`, `__add__`, `parse`, `compute_J`,
`episodes_length`, `select_first_episodes`, `get_init_states`, list-backed datasets, `CollectDataset`. Not modelled: medians,
`compute_metrics` printing, saving.
Method: refinement to the list of transitions; recursive specification of episodes.
Findings: empty + dataset changes the last flag, empty + empty raises (R); a fit inside an episode makes `CollectDataset`
mark a wrong episode end (R); list-backed datasets count numpy booleans wrongly and `+` raises (R); negative indices read
unwritten rows (R).

### Memory (`rl_utils/replay_memory.py`)
Modelled: `ReplayMemory` (also n-step), `SequenceReplayMemory`, `SumTree`, `PrioritizedReplayMemory`.
Findings: n-step returns overwrite the rewards of the caller's dataset (R); sequences can cross the write position of a
full memory (R); ties between sibling sums make `SumTree` ignore the drawn number and can return unwritten slots (R);
`SumTree(max_size=1)` recurses for ever (R); loading a `SumTree` saved without `full_save` restores the tree and the
position, but an empty dataset.

### Serialization (`core/serialization.py`)
Modelled: `save`, `load`, `save_zip`, `load_zip`, `_add_save_attr`, `_post_load` order, all methods, for arbitrary object
trees; external encoders are an argument. Findings: attributes saved with `mushroom!` are never restored (R).

### Vector (`core/vectorized_core.py`, `core/_impl/vectorized_core_logic.py`, `VectorizedDataset`, `core/multiprocess_environment.py`)
Modelled: the loops, masks, vectorised datasets and their flattening, pipes and worker processes with all interleavings.
Callbacks are modelled by a second copy of the loop (ModelCallbacks.lean), which is proved to follow the first.
Not modelled: core preprocessors and `initial_states` (they do not work in `VectorCore`), rendering, infos.
Findings: `evaluate` after `learn(n_episodes_per_fit=k)` with `k < n_envs` never returns or raises (R); with
`n_steps_per_fit` not a multiple of `n_envs` transitions are delivered twice or lost (R); `learn(n_episodes, n_steps_per_fit)`
can overflow the dataset (R); `CollectDataset` then holds left-over transitions twice, and step callbacks receive samples of
idle environments (R).

### Policy (`rl_utils/parameters.py`, `rl_utils/variance_parameters.py`, `policy/td_policy.py`, `approximators/table.py`)
Modelled: all parameters with full indices, `EpsGreedy`, `Boltzmann`, `Mellowmax`. Not modelled: partial indices.
Findings: asking Boltzmann or Mellowmax for a probability changes the inverse temperature (R); variance parameters share one
counter between all cells, a call ignores its index, and with at least three actions every call raises (R); windowed variance parameters
cannot be called more than twice unless the window is 1 (R); Mellowmax calls its omega twice and mixes the two values (R).

### TD (`algorithms/value/td/*.py`, `rl_utils/eligibility_trace.py`)
Modelled: all tabular agents, SARSA(λ), Q(λ), True Online SARSA(λ), SARSA(λ) with linear approximators, the agents inside of
`Core`. Method: locality and bounds of updates, contraction to the optimum of deterministic problems, on-policy property from
the model of `Core`. Findings: RQ-learning ignores absorbing transitions in its estimate of the next value (R).

### ValueFn (`rl_utils/value_functions.py`, `ppo_bptt.py`)
Modelled: TD(0), Monte-Carlo and generalised advantages, sequences of PPO_BPTT. Findings: Monte-Carlo advantages leak over
trajectories ended by the horizon (R); sequences of PPO_BPTT are not cut in the first `truncation_length` steps (R).

### Stats (`rl_utils/running_stats.py`, `rl_utils/preprocessors.py`, `rl_utils/optimizers.py`, `utils/plot.py`)
Modelled: all classes; mean curves and confidence bands, with scipy's `sem` and `t.interval` from their documentation. Not modelled: multi-dimensional observations, `_eps` of Adam after loading.
Findings: standard deviations depend on the batching (R); `MinMaxPreprocessor` overwrites the caller's array if all components
are bounded and cannot be constructed with exactly one (R); optimizers negate the caller's gradient for `maximize=False` (R).

### Utils (`utils/angles.py`, `utils/minibatches.py`, `utils/numerical_gradient.py`)
Modelled: all functions; `scipy.spatial.transform.Rotation` is modelled from its documentation (ModelRot.lean). Findings: integer parameters are truncated by the numerical gradient.

### Features (`features/`, `utils/features.py`)
Modelled: tiles, Voronoi tiles, tiles features, Fourier and polynomial bases, action features, RBFs. Not modelled: torch
tensors of the same functions, `TorchFeatures`. Findings: the upper bound `high` is not covered by the first tiling.
The feature implementations, the factory, Gaussian radial basis functions and the torch tensors are modelled with the shapes of their results (C113); not: broadcasting of vectors with one entry, devices, underflow (`nan_to_num`).

### Approx (`approximators/`, `utils/torch.py`)
Modelled: linear and CMAC approximators, action and Q regressors, ensembles, tables, weight vectors of torch networks.
Findings: `set_weights` keeps the caller's array (R); too long vectors are accepted (R); `CMAC.diff` applies the features twice
(R); `CMAC.fit` gives NaN for uncovered inputs; ensembles of torch networks cannot compute variances with min/max.
The training loop of `TorchApproximator` is modelled over an arbitrary network and optimiser (C111); not: progress bars, data types.
`ModelRegressor.lean` (C121) models arrays by shape and entries, the wrapper `Regressor`, its implementations, ensembles and tables; negative indices are left out.

### Backend (`lean/Verif/Backend`, C123)

Values carry the library they belong to; arrays are shape and entries. The functions of the backends that only rename a function of the library (zeros, ones, copy, ...) are not modelled. Devices and dtypes are left out, apart from the check that only tensors take a device.

### Solvers (`solvers/`)
Modelled: value iteration, policy iteration, LQR (Riccati, policies, values, gradients), car-on-hill search. Method: contraction
mappings, comparison lemmas, completion of squares, search invariant. Findings: policy iteration stops within the tolerance of
`np.isclose` (R); car-on-hill failures are discounted once too often and `max_k` is treated as a failure (R); LQR gradients
raise for batches (R).

### Finite (`environments/finite_mdp.py`, `environments/grid_world.py`, `environments/generators/`)
Modelled: everything (rendering: see Render). Findings: the start of a grid world is unchecked (R); maps without a final newline raise (R);
the taxi reward is not given when the action slips into the goal (R), and a map without passengers raises (R). Episodes of the generated environments (C136): ModelEpisode.lean, PropsEpisode.lean.

### Envs (`environments/{puddle_world,ship_steering,lqr,car_on_hill,inverted_pendulum,cart_pole,segway}.py`)
Modelled: steps, resets, rewards, dynamics (as vector fields; the integrator is an argument). Method: range invariants, energy
identities, Lagrangian derivations. Findings: an episodic LQR, CarOnHill and Segway leave their spaces (R); a ship that moves along
the gate is not detected (R); `reset(state)` of three environments normalises the caller's array; `ShipSteering(n_steps_action=0)`
raises; negative indices wrap in PuddleWorld.
`ModelReset.lean` (C125): the `reset` methods with NumPy arrays that have an element type and are shared with the caller, and `LQR.generate`.

### DQN (`algorithms/value/dqn/*.py`, `algorithms/value/batch_td/*.py`)
Modelled: all agents but the bodies of the networks. Findings: LSPI bootstraps from absorbing states (R); the levels of QuantileDQN are
shared by the class (R); the second `fit` of BoostedFQI fails (R); MaxminDQN changes the caller's parameters.
`ModelNoisy.lean` (C122): the layer and the parameters of the noisy DQN; the feature network is an arbitrary function.
`ModelNets.lean` (C124): networks and losses on tensors with broadcasting and squeezing; the features and linear layers are arbitrary functions.

### ActorCritic (`algorithms/actor_critic/`)
Modelled: DeepAC, DDPG, TD3, SAC, TRPO, PPO, A2C, StochasticAC(_AVG), COPDAC_Q. Not modelled: gradients of networks. The values of the targets are modelled
for numeric flags; `ModelShapes.lean` (C135) models the shapes of the tensors and that PyTorch refuses `1 - absorbing` for booleans, so that DDPG and TD3 raise. Findings: the conjugate gradient overwrites its right-hand side through an alias (R); the line search
tolerates 1.5 `max_kl` (R); the log-probability of SAC omits the scaling (R); one-sample batches give NaN advantages (R).
`ModelTRPO.lean` (C148): whole calls of TRPO.fit; numbers that are not finite are `none`. Finding: the line search of TRPO compares objectives with different
values of a scheduled entropy coefficient (R).

### Search (`algorithms/policy_search/`, `distributions/`, `policy/gaussian_policy.py`, `policy/vector_policy.py`)
Modelled: REINFORCE, GPOMDP, eNAC, REPS, RWR, PGPE, MORE, ConstrainedREPS, Gaussian distributions and policies, the vectorised start of
episodes. Not modelled: ePPO, torch distributions; scipy's minimisers are arguments. Findings: GPOMDP leaks rewards of unfinished episodes
(R); failed fits leave scores behind (R); GPOMDP has gradient zero when the rewards of each time step are equal, as in survival tasks, and is not consistent when episodes end early (R); eNAC converges to a direction that can point downhill if the discount factor is less than one (R); biased and unbiased estimates are mixed (R); the divergence bound of REPS holds for the
weights only (R); MORE counts mixed coefficients twice (R); black-box agents fail in parallel environments with default arguments (R).
The Gaussian densities are proved to be densities with the stated mean, covariance, entropy and divergence by integration (`Normal.lean`, C58, C96, C112). Torch policies and torch distributions (C112): `torch.distributions` is given by its formulas; gradients and sampling are not modelled.
ePPO is modelled over an arbitrary distribution and optimiser (C114).

### Table of the serializable classes (`Serialization/Table.lean`)

`Table.lean` is generated by `tools/save_table.py` from the Python syntax trees of /repo: for each of the 130 subclasses of
`Serializable` it lists the attributes registered by the constructors (own and inherited, in order) with their save
methods, the attributes assigned by `_post_load`, those assigned by constructors and those read by methods. The generator
is part of the trusted base of C115 in the way that the hand-written definitions of the model are: it is a transcription
of the sources that has to be checked against them, and every entry cites its file and lines. Attributes reached through
`getattr` with computed names and attributes of objects that are not serializable are not in the table. C116 describes
what the table means for replay memories, with the exact behaviour of their methods after loading.

### Callbacks and plots (`Misc/{ModelCallbacks,SpecCallbacks,PropsCallbacks,PropsPlots}.lean`)

Arrays and Python lists are objects with addresses, so that sharing can be expressed; the learner writes into its tables in
place. Of the plotting window only the marks of the tree and the tracking flags of the data buffers are modelled; drawing,
timers and Qt are not. A click is handled between two steps, as `processEvents` does at the end of a step.

### Hockey (`Hockey/{Model,ModelBullet,Spec,Props,PropsBullet}.lean`)

Air hockey in MuJoCo and PyBullet, and ball in a cup. Physics, inverse kinematics and collision detection are not modelled: states,
contacts and the result of the forward kinematics are arguments. Modelled are frames, observations, flags, constraints, resets,
absorbing states and rewards. That the six velocities of a MuJoCo free joint are three linear and then three angular ones is
part of the trusted base (MuJoCo documentation). Divisions of a vector by its zero length give zero here and NaN in numpy. The
delayed observations of the PyBullet environment with two agents are not modelled.

### Misc (`utils/plots/databuffer.py`, `core/logger/data_logger.py`, `utils/mujoco/observation_helper.py`, `core/extra_info.py`)
Modelled: the bookkeeping. Not modelled: plotting, `compute_metrics`, the MuJoCo arrays behind `get_state`.
Findings: `DataBuffer.set` loses the bound (R); a resumed logger forgets the best performance (R) and reads files of other runs (R);
`remove_obs` misaligns indices, limits and joints in certain orders (R); `ExtraInfo` raises for keys that appear after a parse, mixes up
clashing names, loses data in copies and reorders steps in additions (R).

### Explore (`policy/noise_policy.py`, `policy/deterministic_policy.py`, `policy/promps.py`, `policy/dmp.py`)
Modelled: draws as functions of the noise, time of ProMPs, Euler steps of DMPs. Not modelled: basis functions (arguments), the covariance of
ProMPs. Findings: `ProMP.draw_action` always raises TypeError (R); `ProMP.set_duration(d)` stores `d - 1` (R); the canonical system of
a DMP is driven by the position (R); `DMP` returns the array it changes in place (R), never calls the constructor of `Policy` and its
`draw_action` has no `policy_state` parameter.

### Wrap (`environments/{atari,gymnasium_atari,mujoco,gym_env,gymnasium_env,dm_control_env,minigrid_env,igibson_env,habitat_env}.py`, `rl_utils/spaces.py`, `core/environment.py`)
Modelled: the step loop, resets, actions, collisions and times of `MuJoCo` and `MultiMuJoCo` over an arbitrary dynamical system (not:
viewers, `_read_data`/`_write_data`, `_step_init`/`_step_finalize`, floating point in `_get_env_id_map`); `MaxAndSkip`, `LazyFrames` lengths, resets, steps, ends of episodes. Not modelled: image processing and the emulator (arguments).
Findings: frames of an earlier call are pooled if a game ends inside a skip (R); rewards and ends of games during forced actions are
ignored (R for rewards); `GymnasiumAtari.step` fails with frame skipping and `GymnasiumAtari.reset` after an episode that did not end the game
(R); `MultiMuJoCo.reset` does not return a pair (R), sets the timestep of one model (R) and compares limits of one model with themselves (R).

Time limits, horizons, resets and shapes of the environments around gym, gymnasium, dm_control, MiniGrid, iGibson and Habitat are modelled over
an assumed behaviour of these libraries, stated at the top of `Wrap/ModelGym.lean`; spaces and the registry completely except data types and
keyword arguments. Findings: see the notes of C106, C107 and C109 in the manifest. In `Vector`, `ModelSingle.lean` models the interface of a single
environment; initial states do not reach the environments (C108). PyBullet: names, observations, actions, contacts and steps, over an arbitrary
simulator (C110); not: viewers, loading of files, parsing of contact names.

### Record (`utils/record.py`, recording in `core/core.py` and `core/vectorized_core.py`)

C126. The state is a recorder and a disk that maps paths to lists of frames. OpenCV is idealised: opening a writer empties the file, writing appends a frame of the right size and ignores others. `Vector/ModelIsaac.lean` (C127) models `environments/isaac_env.py` over an arbitrary task.

### Render (`utils/viewer.py` class `Viewer`, `render` of the native environments)

C128. A window is a background colour and the list of shapes drawn on it, in pixels. How pygame fills the pixels of a shape, waiting, and several viewers in one process are not modelled; `ImageViewer` and `CV2Viewer` are not modelled.

### Console logging (`core/logger/console_logger.py`, `core/logger/logger.py`)

C130. The registry of python's `logging` module is a function from ids to levels and handlers. Hierarchies of loggers (ids with dots), calls of `logging.disable` by user programs, other levels of the root logger, the format of lines and errors of the file system are not modelled.

### Wrapped environments, continued (`environments/gym_env.py`, `gymnasium_env.py`, `igibson_env.py`, `habitat_env.py`)

C131. Wrapper classes are functions that may fail. Pictures are opaque; the viewers, the configuration files and the search for shortest paths of Habitat are not modelled.

### System (`Verif/System`)

`Experiment` is a user of `Core` whose world is split into the agent and everything else; `Experiment.sys` turns it into a `Core.Sys`. `dqn` and `rainbow` give
the agent of `Verif.DQN` the memories of `Verif.Memory`; `gaeData` gives `compute_gae` (`Verif.ValueFn`) the dataset of a fit. Nothing of the parts is modelled anew.
Not covered: agents that set `next_action` in `fit` (SARSA; `Verif.Core` allows them), `VectorCore` runs.

### Dataset objects (`core/dataset.py`, `core/_impl/*_dataset.py`)

`Dataset/ModelObject.lean` models whole `Dataset` objects over the three storages: rows, policy columns, parameters and
the description. C133 states what histories of calls, views, selections and concatenations keep, and what they lose.
`Vector/PropsObject.lean` builds the flattened object out of the packed columns with the same `fromArray` and proves that
its rows are those of the vectorised model. Not modelled: infos (see `Misc/ModelInfo.lean`), devices and data types.

- **Serialization, references** (`Serialization/ModelLinks.lean`, `PropsLinks.lean`, C134): which attributes of an agent, its policy, its optimizer and its policy's parameter refer to the same function before saving and after loading; `_post_load` of the agents; `TorchUtils.update_optimizer_parameters`. Not modelled: the values themselves (weights are opaque, the encoders give back what they were given, C20) and attributes other than the learned functions.

**Approx/ModelHeap.lean** (C137): the memory of the weights of torch networks. Blocks of memory, views of them for the parameters, in-place updates by optimisers, `get_weights` (which allocates) and `set_weights` (which does not copy). What PyTorch operations share memory is an assumption stated in the file.

System/ModelGridQ.lean, SpecGridQ.lean, PropsGridQ.lean and TD/SpecLive.lean, PropsLive.lean: a GridWorld and a QLearning agent inside Core, from learn to evaluate.

- **System/Pre**: preprocessors inside whole runs of Core and VectorCore (C144).

TD/SpecStoch, TD/LemmasAverage, TD/LemmasNoise, TD/PropsStoch*: random finite problems (`RandomMDP`), experience in them over a probability space with a filtration, Robbins–Monro rates; almost-sure convergence of the models of QLearning, SARSA, ExpectedSARSA and MaxminQLearning of TD/Model, of whole runs of `learn`, and with the rates of the model of DecayParameter of Policy. Integrals and conditional expectations are Mathlib's.

### Logging

What a logger given with `set_logger` does during learning: `PPO._log_info`, `TRPO._log_info`, the losses that `Regressor._log` writes during the fits of a DQN agent. The
formatting of the messages and the files are not modelled here (Misc models the console and the logger classes); the mean return of the dataset in the message is an
argument. `PPO_BPTT._log_info` does nothing and has no model.

TD/SpecGlie, TD/LemmasGlie, TD/LemmasTraj, TD/PropsGlie*: EpsGreedy agents whose epsilon decays with the visits. The draws of the actions are given by their conditional
probabilities (`ActionDraws`), tied to the model of `EpsGreedy` of Policy by `C151_policy`; SARSA's continuing action is drawn with the table before the update, as in the code.
In `draw_action` the policy calls its parameter, which counts the visit; `EpsGreedy.__call__` reads it with `get_value`, so expected SARSA uses the value without the visit (`epsSeen`).

### Eval

Eval/Spec: a random environment and an agent that does not learn (`Sim`), its value by backward induction over the steps (`Sim.value`, `Sim.performance`), and the law of the random
numbers (`draws`). Eval/Model: the program that Core.evaluate runs on it (`simSys`), in terms of the loop of Core/Model. Eval/ModelVector: the same for VectorCore.evaluate
(`vecSys`), in terms of the loop of Vector/Model. Not modelled here: preprocessors.

### View (C155, C156)

`Verif/View/Model.lean` models `MujocoViewer` (utils/mujoco/viewer.py): the camera parameters, the constructor's choice of camera mode and of visible groups, the callbacks for keys, mouse and
wheel, and `render` with its nested loops. MuJoCo and GLFW are not modelled: the moves of the camera are a parameter, and what GLFW reports (events, closing of the window, how long a frame took) is read from a
tape. `Verif/View/Frame.lean` models the pictures: sizes and buffers without a window, `read_pixels`, the choice of the backend, `PyBulletViewer._get_image`, `ImageViewer` and `CV2Viewer`. OpenGL, pygame, cv2
and pybullet appear only through what they are given and what they return.

### Plots (`utils/plots/{window, plot_item_buffer, databuffer}.py`, `utils/callbacks/plot_dataset.py`)
Modelled: the window with its ticks, tracking and layout; the curves, pens, names and random colours of a plot; the limit lines of
`PlotItemBufferLimited`; the buffers and what `PlotDataset` feeds them. Lines are numbered objects. Not modelled: drawing by Qt, refresh rates, `common_plots.py`
(only names).

### Not modelled at all
How pyqtgraph draws the plots, `plot_mean_conf`, simulator assets, the tensors of neural networks and the automatic differentiation of torch,
constructors that only copy arguments, the wrapper classes of Habitat and iGibson.

## Per property

What is modelled is in the section of the area; the table gives the proof and what is missing.

| id | property | area | status | proof |
|---|---|---|---|---|
| C01 | learn by steps: exact number of interactions, fits and fit batches | Core | proved | Loop invariant relating counters, dataset and fits; measure for termination. **Note:** Termination, exact counts and exact position and content of every fit, for every N and k>=1. |
| C02 | learn by episodes: exact number of episodes, fits and complete-episode batches | Core | proved | Loop invariant; episodes as maximal blocks; finite horizon gives termination. **Note:** Finite horizon (Dataset.generate asserts it); every N, k>=1. |
| C03 | Transitions are chained and flags are right | Core | proved | Invariant of the growing dataset at every iteration. **Note:** At every point of every run. |
| C04 | evaluate never fits and returns the whole history | Core | proved | Same invariant with the fit condition constantly false. |
| C05 | Mixed budgets: fit by steps while moving by episodes and vice versa | Core | proved | Case analysis of the move and fit conditions on the common invariant. |
| C06 | The preallocated dataset never overflows | Core | proved | Bound on the length between two clears. **Note:** Fit periods of 0 are excluded: the code then allocates no row and the first step raises (example beside the theorem). |
| C07 | Dataset is a list of transitions | Dataset | proved | Refinement of the array storage to lists. **Note:** Proved as stated (indices in [0,len)). Beyond the statement, negative indices and negative slice bounds read uninitialised rows: machine-checked counterexamples. |
| C08 | compute_J is the discounted return of each episode | Dataset | proved | Induction over the rows with the Horner form of the discounted sum. |
| C09 | Episode bookkeeping is consistent | Dataset | proved | Induction over episodes. **Note:** The median is not modelled. |
| C10 | Episode selection keeps whole prefixes | Dataset | proved | Induction over episodes. |
| C11 | Concatenation of datasets | Dataset | partial | Refinement; concrete witness for the failure. **Note:** False for an empty left operand: the flag of the last row of the right operand is set (counterexample), and empty + empty raises. |
| C12 | CollectDataset reproduces the run | Dataset | partial | Induction over the fits; witness. **Note:** Exact content proved for every sequence of fits; equal to the run only if fits happen at ends of episodes, refuted for fits inside an episode. |
| C13 | ReplayMemory is a FIFO of the last max_size transitions | Memory | proved | Refinement to the list of all transitions ever added; last `max_size` of it. |
| C14 | n-step transitions stay inside one episode and carry the discounted return | Memory | proved | Specification of windows within one episode; induction over the deque. |
| C15 | Adding to a replay memory does not modify the caller's dataset | Memory | partial | Store of arrays; witness. **Note:** True for n_steps_return=1; false for n_steps_return>=2, where the caller's rewards are overwritten in place (counterexample). |
| C16 | Sequences sampled for recurrent agents are contiguous pieces of one episode | Memory | partial | Index arithmetic modulo the size; witness. **Note:** `C16_batch` is about whole batches with their padding. Shape, length, episode boundaries and previous actions proved for every slot; consecutiveness proved unless the piece reaches back over the write position of a wrapped memory, where it is refuted. For agents without internal state `get` always fails. |
| C17 | SumTree totals are exact | Memory | proved | Sum invariant of the tree over arbitrary operation sequences. **Note:** max_size >= 2; with max_size = 1 the first add recurses for ever (counterexample). update needs indexes of the tree, not of the dataset as documented (C17_dataset_index_refuted). |
| C18 | Proportional sampling from the SumTree | Memory | partial | Descent as search in prefix sums; witnesses for ties. **Note:** Proved without ties between sibling sums; with ties the choice ignores s and can return an unwritten slot (counterexamples). |
| C19 | Importance weights are normalised | Memory | proved | Algebra over ℝ on top of C17. **Note:** Over the reals. On a memory that is not full a tie (C18) can return priority 0; the statement ranges over positive priorities. |
| C20 | Saving and loading an object gives back its saved attributes | Serialization | partial | Structural induction on the object tree. **Note:** Exact result proved for every object graph; equal to what is promised unless a 'mushroom!' attribute has a value: these are never restored, so a replay memory saved with full_save=True is unusable after loading (counterexample). |
| C21 | VectorizedDataset.flatten keeps each environment's trajectory contiguous and ordered | Vector | proved | Sorting-free description of the flattening by environment; invariant of runs. **Note:** flatten proved for every history in which an environment becomes inactive only at the end of an episode; C21_runs proves that runs produce only such histories. The policy states of the transitions are not part of the flattened dataset: from_array drops them (C133). |
| C22 | VectorCore collects exactly the requested episodes / steps | Vector | proved | Loop invariant with masks. **Note:** Horizon >= 1; at least two environments (with one, every run raises: C133_one_environment_refuted); no core preprocessors. |
| C23 | evaluate after learn behaves like evaluate on a fresh VectorCore | Vector | partial | Equality of runs from equal states; witness run. **Note:** False after learn(n_episodes_per_fit=k) with k < N (counterexample); otherwise evaluate does exactly what it does on a fresh core. |
| C24 | Vectorized learning delivers every transition to exactly one fit | Vector | partial | Accounting of delivered transitions; witness runs. **Note:** Proved for n_episodes_per_fit and for n_steps_per_fit a multiple of n_envs with n_steps; otherwise transitions are delivered twice or lost and the dataset can overflow (counterexamples). |
| C25 | Scheduled parameters follow their schedule and stay in range | Policy | proved | Closed forms by induction on the number of updates. **Note:** Over the reals; full indices. |
| C26 | EpsGreedy is a probability distribution with the right mass | Policy | proved | Finite sums. **Note:** Random choices are finite distributions. |
| C27 | Boltzmann and Mellowmax are probability distributions that respect the action values | Policy | partial | Finite sums, monotonicity of exp, implicit equation of mellowmax. **Note:** Over the reals. brentq is an argument, assumed to return a root. Proved for a constant parameter omega; refuted for one that changes: Mellowmax calls omega twice and uses the two values together. |
| C28 | Tabular TD updates are local and never bootstrap from absorbing states | TD | proved | Pointwise function updates. **Note:** Over the reals. RQ-learning is C73. |
| C29 | Q-learning values stay bounded | TD | proved | Invariant over runs of the agent in Core. **Note:** For every run of the Q-learning and SARSA agents in Core; per update for the other algorithms. |
| C30 | Q-learning contracts toward the optimal value | TD | proved | Contraction argument along arbitrary histories; limit theorem. |
| C31 | SARSA is on-policy: the action evaluated is the action executed | TD | proved | Invariant of the run: the stored next action is the one executed. **Note:** learn with n_steps_per_fit = 1, which TD.fit requires. |
| C32 | Eligibility traces are reset at the start of every episode | TD | proved | State of the trace after the start of an episode; closed forms. **Note:** Constant lambda. |
| C33 | Generalised advantage estimation satisfies its definition in every episode | ValueFn | proved | Reverse induction over the arrays. **Note:** For datasets in which an absorbing step is flagged as last, as in all data collected by Core; C33_needs_last shows that this is needed. |
| C34 | Monte-Carlo advantage uses only the rewards of the same episode | ValueFn | partial | Reverse induction; witness. **Note:** Violated when a trajectory is ended by the horizon inside of the dataset: the return of the next one is added. |
| C35 | Running standardisation never divides by zero and keeps the exact running mean | Stats | proved | Invariant over updates. |
| C36 | Preprocessed observations stay in range and the environment state is untouched | Stats | partial | Bounds; store of arrays; witnesses. **Note:** Violated: with all components bounded the caller's array is overwritten; with exactly one bounded component construction fails. |
| C37 | Optimizers move in the requested direction by the requested amount and do not modify the gradient | Stats | partial | Norm computations; store; witness. **Note:** Direction and length are proved; with maximize=False the caller's gradient array is negated. |
| C38 | Angle normalisation | Utils | proved | Floor arithmetic over ℝ. |
| C39 | Minibatches partition the dataset | Utils | proved | Permutations and slices. |
| C40 | Weights can be read and written back | Approx | partial | Slices of flat vectors; store; witness. **Note:** Round trips are proved. The weights are not copied: writing into the caller's array after set_weights changes the approximator (refuted). Too long vectors are accepted by the action regressor and torch and their tail is ignored; a failing torch set_weights may leave some parameters changed. |
| C41 | Value iteration is correct | Solvers | proved | Contraction of the Bellman operator; comparison with all decision rules. **Note:** Optimal value specified by expected returns of all decision rules, not by the Bellman equation. |
| C42 | Policy iteration is correct | Solvers | partial | Monotone improvement; finiteness of policies; witness. **Note:** Terminates with non-decreasing values; the result is within the np.isclose tolerance of the optimum, and the refutation shows the returned policy need not be greedy. |
| C43 | LQR solver is consistent | Solvers | proved | Completion of squares; fixed point of the Riccati map; value of linear policies. **Note:** Linear systems and inverses are exact; the action bounds of the environment are not modelled. |
| C44 | Car-on-hill reference values come from a shortest path | Solvers | partial | Invariant of the breadth-first search; witnesses. **Note:** Shortest winning path proved; for failures the returned discount is off by one, and a search that reaches max_k is reported as a failure. |
| C45 | Grid worlds stay inside the grid | Finite | partial | Invariant over histories; witness. **Note:** Proved from every valid start; the constructor accepts a start outside the grid, from which the claim fails (counterexample). |
| C46 | FiniteMDP simulates its tables | Finite | proved | Row sums; support of the sampled distribution. |
| C47 | Generated MDPs are well formed | Finite | partial | Index bijections, row sums, exact table contents; witness. **Note:** Well-formedness and exact contents are proved for all maps and sizes. The taxi reward is not given when the action slips into the goal (counterexample to the documented reward). A map without passengers raises in the taxi generator. |
| C48 | Every line of a map file is used | Finite | partial | Induction over lines; witness. **Note:** Proved for files ending with a newline. Without it, every map whose last row has a free cell raises an index error. |
| C49 | Tile coding activates exactly one tile per covering tiling | Features | proved | Mixed radix arithmetic; floors. |
| C50 | State-action features are block one-hot | Features | proved | Block structure of lists. |
| C51 | Fourier and polynomial bases enumerate each multi-index exactly once | Features | proved | Enumeration without repetition; counting; Chebyshev polynomials for linear independence. |
| C52 | Target network synchronisation schedule | DQN | proved | Induction over calls of fit. **Note:** CategoricalDQN, QuantileDQN and Rainbow count only the calls of fit that update the network. |
| C53 | Categorical projection preserves probability mass and mean | DQN | proved | Finite sums and floor arithmetic. **Note:** Real arithmetic: rounding of (v_max - v_min) / delta above n_atoms - 1 is not modelled. |
| C54 | Deep target updates are convex combinations | ActorCritic | proved | Induction over updates. **Note:** Scheduled coefficients included. Data types (boolean masks) are not modelled. |
| C55 | Boosted FQI sums to the last Bellman target | DQN | proved | Telescoping sum. **Note:** For the first call of fit; a second call fails (C55_once). |
| C56 | Batch value methods do not bootstrap from absorbing states | DQN | partial | Case analysis; witness for LSPI. **Note:** Holds for FQI and DoubleFQI. LSPI masks the values used to choose the next action but not the features of the next state, so it does bootstrap from absorbing states (counterexample). |
| C57 | Policy gradient estimates depend only on the data of the current fit | Search | partial | State machine over histories; witnesses. **Note:** GPOMDP keeps the rewards of an unfinished episode for the next fit, and a fit that raises leaves its scores behind (counterexamples). |
| C58 | Search distributions can be read and written back, and weighted MLE is exact | Search | partial | Matrix algebra, round trips, maximality of the likelihood; witnesses. **Note:** One sample gives no estimate; without weights the diagonal distribution uses the biased estimate and the Cholesky distribution fails for one variable (counterexamples). |
| C59 | Conjugate gradient in TRPO | ActorCritic | partial | Store model of the aliased tensors; comparison with conjugate gradients on matrices; witness. **Note:** The right-hand side, the residual and the first direction share one tensor, so the second direction is wrong and the right-hand side is overwritten (counterexamples; the textbook iterates are proved to solve the system). Proved: the first iterate, the residual identity, the stopping rule and eigenvectors. |
| C60 | TRPO line search is safe | ActorCritic | partial | Loop invariant of the line search; witness. **Note:** The divergence is only bounded by one and a half times max_kl (counterexample for max_kl itself). NaN values of loss and divergence are covered. |
| C61 | The clipped surrogate objective is a pessimistic bound | ActorCritic | proved | Order reasoning. |
| C62 | Recorded statistics windows and the best agent | Misc | partial | Refinement of deques and files; witnesses. **Note:** Holds for buffers never assigned with set, for loggers that do not resume and for names that no other run shares. set loses the bound, a resumed logger forgets its best score, and an unseeded logger loads the files of other runs (counterexamples). |
| C63 | Observation helper indices stay aligned with the built observation | Misc | partial | Invariant over arbitrary sequences of removals and additions; witnesses. **Note:** Holds if no index is removed twice; for the limits if removals are in increasing order; for the joints if none is removed (counterexamples otherwise). In C63_modify the arrays of different keys are different; C163 looks at which arrays they are. |
| C64 | Multiprocess environments answer each command exactly once and only for selected environments | Vector | proved | Simulation of all interleavings of pipes by sequential calls. |
| C65 | Environment dynamics respect their declared bounds | Envs | partial | Range invariants; witnesses. **Note:** PuddleWorld, ShipSteering, InvertedPendulum and non-episodic LQR stay in their spaces. An episodic LQR returns its absorbing states outside of the space, CarOnHill ends outside of its space by design, and the observation space declared by Segway is empty (counterexamples). The integrator is arbitrary. |
| C66 | Who decides the executed action | Core | proved | Invariant of runs. |
| C67 | Episodic agents receive the policy parameters of their episodes | Core | proved | Accounting along runs. |
| C68 | Callbacks see every interaction and every fit exactly once | Core | proved | Trace of callbacks along runs. |
| C69 | List-backed and array-backed datasets agree | Dataset | partial | Comparison of the two back-ends; witnesses. **Note:** True of n_episodes with Python booleans; false with numpy booleans, and + always raises. |
| C70 | Vectorized episodes continue where they are | Vector | proved | Invariant of runs. **Note:** At least two environments: with one, every run raises (C133). |
| C71 | Asking a policy for probabilities does not change it | Policy | partial | Frame property; witness. **Note:** Boltzmann and Mellowmax call their inverse temperature, which updates it (counterexample with a LinearParameter). |
| C72 | Variance-dependent learning rates are kept per cell and stay in range | Policy | partial | update with an index and calls (which drop the index) separately; running means by induction over the calls, algebra for the sample variance; case analysis on the sizes for the exceptions. **Note:** Range proved; with a single cell the values are the stated function of the sample variance of the targets. Refuted for several cells: update(index) shares one counter, a call ignores its index, and with a cell for each pair and at least three actions every call raises. A windowed parameter raises at the first or second call, or has the value 0 from the third call on. |
| C73 | RQ-learning decomposes the action value consistently | TD | partial | Algebra; witness. **Note:** Absorbing transitions do not enter the estimate of the next value (counterexample). |
| C74 | What eligibility traces compute | TD | proved | Simulation between the agents along histories; induction over the steps for the equality with the online lambda-return algorithm. |
| C75 | The value targets of GAE are lambda-returns | ValueFn | proved | Induction; geometric weights. |
| C76 | Recurrent training sequences never cross a trajectory boundary | ValueFn | partial | Index arithmetic; witness. **Note:** Violated for the first truncation_length steps of a dataset with several trajectories. |
| C77 | Running statistics do not depend on batching | Stats | partial | Comparison of batchings; witness. **Note:** The standard deviation depends on the batching (counterexample). Observations with two axes are taken for batches of rows. |
| C78 | Exponential and windowed averages have their defining weights | Stats | proved | Closed forms. |
| C79 | Adam steps are ratios of true averages | Stats | proved | Closed forms with bias correction. |
| C80 | Numerical gradients | Utils | proved | Difference quotients; limits. |
| C81 | Values of single actions agree with the full prediction | Approx | proved | Unfolding both predictions to the same sum. |
| C82 | Linear regression is least squares | Approx | proved | Orthogonality of the residual and comparison with all weights. **Note:** The pseudo-inverse is an argument with two Moore-Penrose conditions. |
| C83 | diff is the derivative with respect to the weights | Approx | partial | HasDerivAt in every weight; witness. **Note:** CMAC.diff applies the features twice (counterexample). |
| C84 | Tile-coding regression | Approx | proved | Sparse sums; averages. **Note:** One output. |
| C85 | Ensemble predictions | Approx | proved | Order statistics and means over models. |
| C86 | LQR policy gradients are the gradients of the values | Solvers | partial | Derivatives of quadratic values; witness. **Note:** The gradient is right for one state; batches of two or more states raise. |
| C87 | ShipSteering detects the gate | Envs | partial | Segment intersection over ℝ; witness. **Note:** Exact unless the movement is parallel to the gate; a ship that moves along the gate is not detected. |
| C88 | Mechanical environments integrate the stated physics | Envs | proved | Derivatives, Euler-Lagrange equations, energy. **Note:** At the bottom of the hill (p = 0) the second derivative jumps and the energy identity is stated away from it. |
| C89 | Targets, networks and losses of the deep Q-learning agents | DQN | partial | Case analysis of each target and loss. **Note:** Everything but two points: a dueling network that subtracts the maximum raises for every input, because the maximum of a tensor along an axis is a pair; and the quantile levels are an attribute of the class and are shared by all QuantileDQN agents of the process (counterexample). |
| C90 | Fitted Q-iteration is value iteration up to the error of the regressor | DQN | proved | Equality with the iterates of the Bellman operator; induction over the iterations for the errors, and over the steps of the greedy agent for its return. **Note:** The bound on the errors is required in the sup norm, at every state and action. |
| C91 | The policy of SAC respects the action space and reports the log-probability of its actions | ActorCritic | partial | Derivative of tanh, change of variables; witness. **Note:** The log-probability is that of the action before scaling to the bounds; it differs by the logarithms of the half-widths (counterexample). |
| C92 | Advantages are standardised | ActorCritic | partial | Mean and variance identities. **Note:** Fails (NaN) for batches of one sample. |
| C93 | Classic actor-critic updates follow the TD error | ActorCritic | proved | Algebra; derivative of the value estimate. |
| C94 | Policy gradient estimators are unbiased with an optimal baseline | Search | partial | Expectations and the distribution of the episodes of a finite process, with absorbing transitions; the derivative of an expectation by induction on the horizon; strong law of large numbers, with the empirical baseline bounded by the rewards; the gradient of GPOMDP is that of another objective when episodes end early, with the survival task as counterexample; quadratic minimisation for the baseline; for eNAC the normal equations, whose block matrix converges to the Fisher information and the moments of the critic features. **Note:** Refuted: with the baseline computed from the same batch REINFORCE is biased for finitely many episodes (half the gradient with two episodes in an example), but consistent. GPOMDP computes the baseline of a time step from the episodes that reach it; when episodes can end early it is not even consistent: if the rewards of a time step are equal, as in survival tasks, its gradient is zero. Proved: unbiasedness with fixed baselines, for GPOMDP without absorbing transitions or without baselines; almost sure convergence of the gradients given to the optimizer as the number of independent episodes grows. The gradient of eNAC converges to the natural gradient if the discount factor is one; for smaller ones it can point downhill (refuted with a two-step task). |
| C95 | diff and diff_log are the derivatives of the (log-)densities | Search | proved | HasDerivAt of log-densities. |
| C96 | Constrained weighted maximum likelihood | Search | proved | Quadratic and log-det inequalities; complementary slackness. **Note:** The multipliers found by scipy are arguments. |
| C97 | Black-box updates: REPS, RWR and PGPE | Search | partial | Gibbs variational principle; derivatives of the dual; witness. **Note:** Everything but the documented bound on the divergence between the distributions: the bound holds for the weights of the samples only (counterexample). |
| C98 | Black-box updates: MORE | Search | partial | Completion of squares and log-det inequality; witness. **Note:** The update is exact. The surrogate is not the fitted model: the coefficients of mixed products are written to both triangles and so count twice (counterexample, exact formula in the partial theorem). |
| C99 | Black-box agents in parallel environments | Search | partial | Case analysis; witnesses. **Note:** Holds for sampling agents with a context builder that returns contexts and a fixed number of environments. With the default context builder, for deterministic agents, after a change of the number of environments, and for policies with states the code always fails (counterexamples). |
| C100 | Extra information follows the steps | Misc | partial | Invariant over sequences of operations; witnesses. **Note:** Holds if every step has the same keys and no joined keys clash. A key that appears after a parse raises KeyError, clashing keys overwrite each other, copies drop the structured storage and additions reorder waiting steps (counterexamples). Views share the dictionary of names with their original: a step with a new key that is appended to a view makes every later parse of the original raise (counterexample). |
| C101 | Exploration noise and deterministic policies | Explore | proved | Induction on the steps, geometric series; case analysis. The laws: sums of independent normal numbers are normal (Mathlib), by induction on the number of terms. **Note:** The laws assume that randn returns independent standard normal numbers. |
| C102 | Movement primitives | Explore | partial | Induction on the steps, closed form of the critically damped recursion and its limit; witnesses. **Note:** ProMP.draw_action always raises, no agent can be constructed with a DMP, set_duration(d) is the same as constructing it with d - 1, the canonical system of a DMP is driven by the weights and DMPs return their internal array (counterexamples). The phase of ProMPs, the equilibrium and the convergence of unforced DMPs are proved. |
| C103 | Atari wrappers | Wrap | partial | Loop invariant of the frame skip; simulation of all sequences of calls; witnesses. **Note:** The pooled frame is stale if the game ends inside a skip, rewards of forced actions are lost, and the Gymnasium version fails with frame skipping and for episodes that end before the game (counterexamples). Everything else is proved. |
| C104 | MuJoCo environments | Wrap | partial | Induction over the intermediate steps; invariant over histories. **Note:** Refuted: with several contacts between the groups the collision force is that of the first contact, not the total. Overridden methods are pure functions. That the returned array is the stored one (if _modify_observation is not overridden) is not modelled. |
| C105 | Several MuJoCo models in one environment | Wrap | partial | Invariant over histories (all other models are in the reset state); induction on binary digits; witnesses. **Note:** reset returns only the observation, which Core cannot unpack; the timestep is set for the first model only; the check of the observation limits compares the first model with itself (counterexamples). Everything else is proved. |
| C106 | Time limits and initial states of wrapped environments | Wrap | partial | Stacks of wrappers over an arbitrary task, with the settings of the limits as an invariant of all calls; objects inside wrappers as dictionaries of attributes **Note:** Proved for gymnasium and Habitat, gym with one time limit, dm_control without pixels and iGibson with its default horizon. Refuted: a second gym time limit stays; dm_control with pixels and MiniGrid change an attribute of a wrapper only; iGibson makes a given horizon the limit of the simulator; reset(state) of Gym and Gymnasium sets an attribute of the outermost wrapper, so that the environment continues from its own initial state. |
| C107 | Shapes and contents of observations of wrapped environments | Wrap | partial | Folds over specifications and induction over the actions of an episode; shapes as tuples **Note:** Refuted: iGibson and Habitat declare width before height; MiniGrid never uses fixed_seed. |
| C108 | The single interface and the initial states of vectorised environments | Vector | partial | Masks with one entry, folds over the workers **Note:** Only with a matrix of actions and without states. Refuted: an action of one environment is rejected; the workers take the first number of their row of the states; every reset of VectorCore.evaluate(initial_states) fails. |
| C109 | Spaces and the registry of environments | Wrap | partial | Case analysis for boxes; induction over registrations and over the characters of a name **Note:** Refuted: arrays and a shape that does not match are accepted, and the shape changes when the box is saved and loaded. |
| C110 | PyBullet environments | Wrap | partial | Invariant of the indices along the specification; folds of updates with distinct keys; list of contacts as a set; invariant over histories **Note:** Refuted: names in the actuation specification that are not movable joints are left out, so that later joints receive the components of others; contacts inside one model depend on the order of the names; of two models with the same name only the last can be used. |
| C111 | Fitting torch approximators | Approx | partial | Induction over batches and epochs; invariant that relates the loop variables to the last improving epoch; number of epochs bounded by the number of improvements; while loop as first round where the condition fails **Note:** Refuted: a call rejected for its validation_split has already reinitialised the weights and leaves dropout active. Losses are real numbers: NaN losses are outside the model. |
| C112 | Torch policies and torch distributions are the distributions they claim to be | Search | partial | Change of variables to the standard normal; Cholesky factors; Gibbs' inequality; round trips; witnesses **Note:** Refuted: recurrent policies limit the standard deviation in the density but not in the entropy, and cannot evaluate actions with one component; Boltzmann torch policies return a flat vector for several states; Cholesky torch distributions accept parameters without a density. |
| C113 | Feature implementations and torch features | Features | partial | Induction over the lists of features and samples; exponentials and cosines; witnesses **Note:** Refuted: a single torch feature raises an exception or loses its axis; basis tensors with one centre cannot be computed; von Mises features have period one whatever the length of the cyclic space. |
| C114 | Episodic PPO | Search | partial | Permutations and induction over minibatches; clipping is inactive near the old parameters; chain rule; witnesses **Note:** Refuted: a single episode gives NaN; with contexts the old log-densities ignore them, and the update raises an exception because the entropy is one number for each context. |
| C115 | Loaded objects have the attributes their methods need | Serialization | partial | A table of all serializable classes (generated from the syntax trees of the sources) and structural induction over the nested objects, using the theorem about saving and loading (C20); the lists are computed in the kernel over the whole table **Note:** Proved for all classes outside two explicit lists; the lists are proved to be exact with respect to the table of the classes. Refuted for the classes in the lists: DeepAC, PPO_BPTT, MORE, Regressor, ExtraInfo (hence datasets), ListDataset, TorchDataset, RecurrentGaussianTorchPolicy, AdamOptimizer. |
| C116 | Replay memories after loading | Memory | partial | Invariants of the memory over all histories; the loaded state by definition of what is registered; witnesses **Note:** Refuted: a fully saved ReplayMemory has no dataset after loading; a loaded PrioritizedReplayMemory has priorities but no transitions, so that sampling raises IndexError, and new transitions are stored away from their priorities. |
| C117 | What callbacks and plots have collected | Misc | partial | Objects with addresses and an ownership invariant (arrays of the collected lists are never tables) over all histories; invariant of the window linking the tracking flag of every buffer to the marks of the tree; witnesses **Note:** Refuted: CollectMaxQ and CollectQ disagree on ensembles whose prediction is not the mean; CollectDataset.clean() before the first call raises AttributeError; Table.predict(state) returns a view that changes with the table. |
| C118 | Air hockey with MuJoCo | Hockey | partial | Latch lemma by induction over the contacts; explicit inverse of planar frames; linear arithmetic and bounds of exp and pi for the rewards; witnesses **Note:** Refuted: get_puck mixes up linear and angular velocity, so the rewards for speed do not see the speed towards the goal; the second robot gets a wrong velocity; with two agents the second hit flag repeats the first and get_ee raises KeyError, and observation noise moves the puck in opposite directions for the two agents, so that their observations contradict each other; the joint position constraints use velocities and the end effector constraints allow positions beside the table; the arm is never initialised at random; a goal pays nothing in the repel task; the bonus of the prepare task is paid when the puck is lost. |
| C119 | Air hockey with PyBullet | Hockey | partial | Latch lemma over steps and simulation steps; invariant linking the flag to the states before the last; trigonometric identities; witnesses **Note:** Refuted: observed positions lie outside of the declared space; the reported control period is always 0.1; observation noise, observation delay and environment noise all raise; hit flag and reward of the hit task and the end of the prepare task use the state before the step; a goal pays nothing in the repel task; the bonus of the prepare task is paid when the puck is lost. |
| C120 | Ball in a cup | Hockey | proved | Invariant: the saved state is none or the settled one; induction over the episode |
| C121 | Regressors and tables treat single inputs, batches and models uniformly | Approx | partial | Arrays with shapes; row lemmas for stacked arrays; loop invariant over the models of the actions; index arithmetic for tables **Note:** Refuted: the variance of a single input is dropped and the batch axis kept; with torch, variances of min and max raise; variances of numpy and torch ensembles differ; an unknown action predicts zero with one model per action; the members of an action regressor are not its models, so indexing or logging raises or records nothing; iterating over a regressor without n_models never ends; tables drop the axis of a batch of one, use only the first entry of a state, cannot predict with one axis, and fit raises for an integer. |
| C122 | Noisy networks | DQN | partial | Integrals over uniform draws with independence; algebra for every draw; witnesses **Note:** Refuted: the noise is drawn from the unit interval, so the expected weights are raised by 4/9 and the bias by 2/3 of the noise weights, and no draw ever lowers a value of nonnegative features; predictions of the online and target networks change at every call; layers without bias cannot be printed. |
| C123 | The array backends are interchangeable | Backend | partial | Values tagged with their library, tensors as shape and entries; index arithmetic for row-major and column-major order by induction on the shape; counting on sorted lists for the median; witnesses **Note:** Refuted: asked for a list, convert and parse return the class NotImplementedError instead of raising it; where with two arrays returns None; squeezing an axis larger than one raises with numpy only; the median of an even number of entries differs; a list with a single array cannot become a tensor if it has several entries, so the initial states of a single episode raise; metrics of a list dataset with a complete episode raise; windows over arrays have no mean with torch. |
| C124 | Distributional networks, losses and targets | DQN | partial | Tensors with broadcasting; sums over index ranges; the projection theorems of C53; induction over the datasets **Note:** Refuted: the reduction 'sum' of the categorical loss is the mean; with one quantile every prediction is compared with every target of the batch, and with a batch of one the loss raises; clipping rewards in Rainbow clips the n-step return; datasets with fewer steps than the return leave Rainbow's memory empty forever. |
| C125 | Resetting an environment | Envs | partial | Draws as affine bijections of the uniform number; uniqueness of the normalised angle; sums over diagonal matrices; the interval characterisation of `choice` **Note:** Refuted: the array of the caller is overwritten with the normalised angle; with an array of integers the normalised angle is truncated; car, puddle world, LQR and FiniteMDP accept states outside their spaces; LQR.generate raises for a principal state beyond the number of actions and ignores a single dimension; FiniteMDP may start in a state without transitions, where every action raises. |
| C126 | Recording videos | Record | partial | State machine of recorder and disk; induction over calls and frames; injectivity of the file names; induction over the masks **Note:** Refuted: after an interrupted call the next video starts with the frames of that call; a call without steps raises; frames of another size are lost; steps longer than a second give no frames per second and dt = 0 prevents the construction. With several environments the recorders share their files; a step raises as soon as the active environments are not the first ones, which happens when an earlier environment finishes first; an environment that is never started makes the run raise at its end. |
| C127 | Isaac environments | Vector | partial | Unfolding of the model; induction over the nesting and the physics steps **Note:** Refuted: if exactly one environment is to be reset nothing is reset; given starting states are ignored; all the environments are moved. |
| C128 | Pictures of the environments | Render | partial | Pictures as lists of shapes in pixels; floor inequalities; induction over the history of renders; trigonometric identities **Note:** Refuted: the start of a grid world is drawn in a wrong cell unless it is the upper left one (by default the one of van Hasselt is drawn over the goal); corridors get no lines; the first picture of a window has a black background; torque_arrow changes the array of its caller; the head of a force arrow below a pixel points to the right; the arrow of the cart-pole points against the force; rendering the segway moves its wheel; a puddle world without puddles divides by zero; points left of the window are drawn in its first column. |
| C129 | Factory of Voronoi tilings | Features | partial | Monotonicity of the logarithm; ceilings; minimality **Note:** Refuted for Gaussian prototypes: np.size(low) of None is one, so the automatic number of tilings ignores the dimension of the space. That Gaussian draws have the right distribution is not modelled. |
| C130 | Console logging and file names of loggers | Misc | partial | Invariant: the registry has exactly the handlers of the existing loggers; injectivity of names by splitting at the last minus sign **Note:** Refuted: loggers with the same id share their handlers, so messages are written twice, the levels of the newer one hold for both, and replacing a logger by a new one with the same name silences the new one; the experiment a-1 and the experiment a with the seed 1 have the same id, as have all unnamed loggers of the same second; the level NOTSET drops messages below WARNING; constructing an iGibson environment with default arguments silences all loggers of the process; the agent of epoch n of an unseeded run is saved to the file of the agent of the run with the seed n. |
| C131 | Wrappers, pictures and actions of wrapped environments | Wrap | partial | Induction over the list of wrappers and over histories of calls **Note:** Refuted: wrappers that are not tuples get the arguments of the environment too, so the constructor fails if they do not know them; with fewer dictionaries than wrappers the last wrappers are left out silently; after a reset iGibson and Habitat show the last picture of the previous episode, and fail before the first step; environments of pybullet show and record only their first frame; without a gripper the arm of Habitat gets no action. |
| C132 | Whole learning runs: what reaches the learning rules | System | partial | The loop of `Verif.Core` is instantiated with an agent whose `fit` is the one of `Verif.DQN`, over the memory of `Verif.Memory`; the theorems compose the invariants of those areas over the trace of the run. **Note:** Everything but (d) is proved. (d) is refuted by C132_starved_refuted for every environment and every number of steps. |
| C133 | Dataset objects keep the transitions, policy states and parameters they are given | Dataset | partial | Induction over histories of calls against a specification that reads the calls since the last clear; case analysis over back-ends for the other methods; refinement of the flattened rows of the vectorised model. **Note:** False as stated: from_array drops the policy states it is given (although the description of the dataset keeps their shape), so datasets flattened for a stateful agent have none (flatten_refuted); views have no list of parameters, so dataset[:k] + dataset[k:] raises (view_thetas_refuted); policy states of the list storage cannot be read and its views cannot be copied; numpy integers are refused as row numbers and select_random_samples(0) is not a dataset (index_refuted); VectorCore raises at the first step with a single environment because the dataset has no masks (one_environment_refuted). Proved: histories of calls for all back-ends, views, selections and concatenation with array storage. |
| C134 | Learning goes on after loading | Serialization | partial | References of an agent, its policy and its optimizer as slots with locations; saving gives every saved attribute a copy of its own (the methods come from the generated table), the code after loading assigns. The updates are arbitrary functions; the tables are checked for both values of full_save, the rest is induction over the fits. Optimizers: state moved parameter by parameter; induction over the steps with an arbitrary rule. **Note:** Proved for all agents but three. Refuted for COPDAC_Q (after loading the agent and its policy have separate copies of the mean: the policy never changes again), for ePPO (the optimizer holds copies without gradients: the distribution never changes again) and for any agent with a Mellowmax policy (the temperature is computed with the function as it was when it was saved). |
| C135 | Losses and targets use one value per transition | ActorCritic | partial | Tensors with shapes, broadcasting and squeezing; the values of networks are arbitrary functions of the transition. The losses are computed from the tensors as in the code and shown equal to sums over transitions, or to sums over pairs of transitions where the shapes do not fit. **Note:** PPO, TRPO and A2C need a critic that returns a column and SAC one that returns a vector; with the other shape the transitions are mixed without an error, and PPO then has a loss that does not depend on the policy. Monte-Carlo advantages raise for one transition, the recurrent policy raises for actions with one component, and DDPG and TD3 raise in every fit because PyTorch does not subtract booleans. |
| C136 | Episodes in generated environments follow the map | Finite | proved | Invariant over runs of the sampled chain: the support of each row from the exact table contents of C47; terminal states from row sums. **Note:** End-to-end over the generators, the constructor, reset and step. That the taxi generator raises for a map without passengers and that a slip into a goal is not paid are C47_taxi_empty_refuted and C47_taxi_slip_refuted. |
| C137 | Networks that exchange weights stay independent | Approx | partial | Memory blocks and views of them; refinement of a specification in which every object owns its contents, by an invariant that the views of different parameters do not overlap. **Note:** set_weights does not copy an array of the type of the parameters: networks given the same array of the user train each other (C137_shared_refuted). |
| C138 | A call of SAC.fit trains every network with its own loss only, in a fixed order | ActorCritic | proved | Model of SAC.fit with gradient buffers as explicit state; noninterference by induction over the calls, explicit update equations per call. **Note:** Networks, losses of the critic, automatic differentiation and optimisers are arbitrary functions; floats are reals. |
| C139 | Agents that are given the same configuration objects do not interfere | Misc | partial | Store of dictionaries by cell, constructors as functions on it; induction over the program. **Note:** Holds for agents of one kind, for different dictionaries, and when no constructor has to write; refuted for shared dictionaries and different kinds. Values of keys other than n_models and idx are not looked at. |
| C140 | Q-learning run through Core in a grid world finds the shortest paths | System | proved | The model composes Core (Core/Model), the TD agent (TD/Model) and the grid world (Finite/Model): System/ModelGridQ. The run's samples are shown to be transitions of the grid by an invariant over the loop, the table is then the fold of the updates over the samples, and the error of every live entry contracts (induction on the list of updates, then on the pieces). The gap between a shortest path and a detour is at least 10 gamma^(h+w) (1-gamma), so that a small error leaves the greedy actions right. For evaluate an invariant counts moves left plus moves made. **Note:** C140_learn (Verif.TD) is the general theorem: a whole call of learn in a deterministic environment. C140_grid_optimal: Bellman's equation in the live states is solved by the discounted returns of the shortest paths (its only solution, used in C140_return). C140_grid_bound gives an explicit condition on K, C140_grid the existence of K. C140_evaluate covers evaluate with a greedy policy, including its termination. Rewards and values are real numbers; the start is assumed to be a cell of the grid, which the constructor does not check (C45_start_refuted). The agent's policy has no preprocessors. |
| C141 | Weighted Q-learning keeps the weighted moments of its targets and the standard error of the mean | TD | partial | WeightedRun lists the reachable agents with the history of learning rates and targets of every pair; induction over it **Note:** The moments are proved for every run. The width is the square root of variance * w2 / (2 w1 + 1e-10), with a floor; the code multiplies the sum of the weights by 2 where the standard error needs its square, so the width is not the standard error (sigma_refuted). |
| C142 | A call of PPO.fit uses every transition once per epoch, with the advantage and probability from before the fit | ActorCritic | partial | The code is modelled with the gradient buffer of the policy and the call counters of all parameters; induction over minibatches, epochs and calls, with the partition of minibatch_generator (C39) and the advantages of compute_gae (C33) **Note:** Proved for constant numbers of epochs and batch sizes and at least two transitions. With one transition the advantages are NaN and the policy is lost (single_refuted); a number of epochs or a batch size given as LinearParameter or DecayParameter is a float and every call raises TypeError (schedule_refuted), although the documentation allows any Parameter. |
| C143 | Parallel environments are isolated, reproducible from a seed, and independent of each other | Vector | partial | Sequences of calls over the pipe semantics of C64, with a generator per process; induction over the calls **Note:** Isolation and reproducibility (for environments whose seed method sets the generator) are proved. Independence is refuted: forked workers start with the same generator and seed sends the same seed to all of them, so that workers which get the same commands answer the same for ever. Environments that inherit seed from the base class are not seeded at all. |
| C144 | Every observation is preprocessed exactly once | System | partial | The loop of Verif.Core with a world whose second part belongs to the preprocessors; the trace is replayed through the preprocessors by a separate function (induction over reachable states). The loop of Verif.Vector is extended with preprocessors that may raise. **Note:** Proved for Core at every point of every run, over several calls, and instantiated with StandardizationPreprocessor. Two parts are false of the code: evaluate updates the statistics (C144_evaluate_refuted), and VectorCore hands the preprocessors the pair returned by reset_all, so that every run with a preprocessor of the library raises before the first step (C144_vector_refuted), and one that accepts the pair is applied twice at every reset, also to the environments in the middle of an episode (C144_vector_twice_refuted). Without preprocessors the extended model of VectorCore is the one of the other properties (C144_vector_none). |
| C145 | Tabular learning converges in random problems | TD | proved | Stochastic approximation theorem (LemmasNoise.table_converges): the noise of every entry is a martingale bounded in L2 (Doob), the rest is a deterministic averaging argument that shrinks the sup-norm distance by the factor γ again and again (LemmasAverage). Instances for each update rule. **Note:** Almost-sure convergence, over an arbitrary probability space with a filtration: the state, the action and the rate are functions of the past, the next state has the probabilities of the problem given the past. C145_draws obtains this from independent random draws, C145_learn, C145_learn_expected and C145_learn_sarsa state the result for whole runs of learn. Not covered: discount 1, rewards that are random given the next state, constant learning rates, function approximation. Other claims: DoubleQLearning (C147), policies that change with the table (C151), WeightedQLearning (C159), SpeedyQLearning (C160). |
| C146 | A call of fit of DDPG, TD3 or A2C trains every network with its own loss only, in a fixed order | ActorCritic | proved | Model of the fit methods with gradient buffers as explicit state; noninterference by induction over the calls, explicit update equations per call. **Note:** Automatic differentiation and the optimisers are arbitrary operators; the critics make their minibatch steps in an arbitrary grouping of the batch. |
| C147 | Double Q-learning converges to the optimal values although each table has its own learning rate | TD | proved | Noise sums converge by the martingale convergence theorem with bounded mean squares (`noise_outcomes`). Along a history, a lemma for averaging towards a contraction with vanishing errors (`history_perturbed`) is used twice: first for the difference of the tables, whose mean target is closer to zero by the factor gamma because the best action of one table evaluated with the other and vice versa differ at most by the distance of the tables, then for the first table. The ratio of the rates tends to one because half of the updates of a pair go to either table, which is the convergence theorem of C145 applied to the frequency of heads. For whole runs (`C147_learn`) the agent in `Core` carries its two tables and its two parameters, and by induction on the steps its state is the one of the theorem about sequences of transitions. **Note:** Real arithmetic. The coin, the next state and the choice among the best actions are random with their probabilities given the past; the state and the action are arbitrary functions of the past. C147_draws derives this from independent random numbers. C147_learn is about whole runs of learn. |
| C148 | A whole fit of TRPO keeps the policy inside the trust region and never makes its objective worse | ActorCritic | partial | The whole method as a function of the agent (ModelTRPO.lean), with vectors that are not finite as none; induction over the trials of the line search and over the iterations of the conjugate gradient, the standardised advantages of C92, and a concrete one-weight agent with a falling entropy coefficient for the refutation. **Note:** fit describes one call completely: preprocessors, critic targets, gradient, direction, full step, the longest accepted halving or the old weights, and the number of times each schedule moves on. safe and run give the trust-region guarantee for one call and for any sequence of calls (single covers datasets of fewer than two transitions: policy unchanged, critic fitted). start and improves_partial: without preprocessors and with a constant entropy coefficient the objective never gets worse than that of the old weights, which is the entropy bonus alone. length, one_iteration and direction tie the step to the Hessian of the divergence and to the conjugate gradient of C59. Missing for all schedules: entropy_refuted, the line search compares objectives with different values of a scheduled entropy coefficient and accepts weights that are worse for every single value; schedule_refuted, scheduled numbers of iterations raise TypeError. |
| C149 | A logger only observes: learning with one gives the same agents as learning without | Logging | partial | withLog puts the message between the updates and the counter, as the code does; induction over the calls relates the two runs; DQN by a projection of the logged system onto the plain one; concrete normal policy for the divergence. **Note:** ppo_partial, trpo_partial and the two run theorems: true for critics that are ensembles (n_models given) or whose network has an argument idx. trpo_divergence: the divergence TRPO reports is the one it limits. dqn: true for a logger that has a directory, for whole runs. Missing because it is false: ppo_refuted, trpo_refuted and run_refuted, with an ordinary critic the keyword idx reaches the network and every call of fit raises TypeError after the weights have changed and before the iteration is counted, so no run gets past its first call; divergence_refuted, PPO reports KL(new, old) instead of KL(old, new); directory_refuted, a logger without a directory makes DQN raise TypeError after its network was fitted and before the update is counted. |
| C150 | A whole fit of recurrent PPO uses each transition once per epoch with its own window and its own behaviour probability | ActorCritic | partial | The loop of PPO (C142) over windows; C76 gives the windows; induction over a piece of a trajectory shows that reading it leads to the recorded policy state; induction over the calls. **Note:** fit_partial, behaviour_partial and run: proved for at least two transitions, actions with at least two components and steps that are in the first trajectory or not among the first truncation_length steps of the dataset. Missing because it is false: one_component_refuted, with actions of one component every call with an epoch raises ValueError after the critic was fitted; single_refuted, one transition makes the weights NaN; behaviour_refuted, the first steps of the dataset are not cut at the end of a trajectory (C76), so their probability before the fit is not that of the draw. |
| C151 | Epsilon-greedy agents with a decaying epsilon explore for ever and find the optimal values | TD | proved | Levy's form of the Borel-Cantelli lemma gives the visits from the floor epsilon / number of actions; the distance of the policy's value to the maximum vanishes, so the updates are those of C145 with a perturbation that vanishes; the Ionescu-Tulcea theorem gives the existence. **Note:** policy ties the distribution of the specification to the modelled EpsGreedy. sarsa and expected_sarsa: convergence for any policy that is greedy in the limit along any experience that recurs. explores, explores_all, q_learning, *_run: the decaying epsilon gives both, so nothing is assumed of the visits. The *_exist theorems show that such experience exists in every finite problem. learn and learn_exists: the same through Core.learn, with no preprocessor, no horizon and one start state. For SARSA no episode ends in a live state, because EpsGreedy counts also the draws made for the state after an absorbing transition. |
| C152 | The mean return of an evaluation over episodes estimates the performance of the policy without bias | Eval | proved | An invariant over the runs of the modelled Core shows that the k-th entry of compute_J is a function of the random numbers left by the first k episodes; the shift of a random number of draws leaves a fresh sequence (strong Markov property, by induction over the steps of an episode), which gives independence and the law; then the strong law and Hoeffding's inequality of Mathlib. **Note:** The environment, the policy and the agent's episode_start take their random numbers from one sequence of independent draws, in the order of the calls; a draw can be a whole array. No preprocessors and no learning: preprocessors with running statistics make the episodes depend on each other. steps_refuted: a game of at most two tosses of a coin, evaluated for one step, scores 1/2 on average although the performance is 3/4. |
| C153 | A vectorized evaluation over episodes gives exactly the episodes asked for, and their returns have the same law as with one environment | Eval | proved | A simulation relates the modelled loop with a process that keeps the flags, the step counters, the hidden states and the sum of discounted rewards so far. The expected final sum given the present, that is the rewards so far, the values of the running episodes and the performance for each episode not yet begun, is a martingale because get_mask never starts more episodes than are missing. At the end it is the sum of the returns. For the joint law the same argument is made with the product of arbitrary functions of the single returns, each labelled with the number of its episode in the order of starts; the labels are ghost state, erased by the simulation. **Note:** In each iteration every environment has its own four independent draws, for its reset, for the start of the episode in the agent, for the policy and for its step; the draws that an inactive environment does not need are discarded. One environment, and a stale number of episodes per fit smaller than N, are excluded: for these see C22 and C23. |
| C154 | LSPI with one feature per state and action ends and finds the optimal values of its dataset | DQN | proved | With one feature per pair the linear system of an iteration says that the new weights are the values of the greedy policy of the old weights in the empirical model; a minimum principle shows that it has exactly one solution, that these values improve on those of the previous policy, that their distance to the optimum shrinks by gamma in each iteration and that a small last change bounds this distance. The optimal values exist by Banach's fixed point theorem. **Note:** Datasets with absorbing transitions are excluded: for these LSPI bootstraps through the end of the episode, which C56 refutes. Floats are idealised to reals, so the rank test is exact. |
| C155 | The viewer of MuJoCo environments obeys its keys, its mouse and its clock | View | partial | render is modelled as a loop over a tape of events and durations; invariants of its three nested loops give the camera of each frame, the number of frames and the returned image. The keys and the parameters are shown by case analysis and by induction over the dictionaries. **Note:** Refuted: the keys 6 to 9 raise an IndexError since MuJoCo has six groups of geometries (keys_refuted); groups that MuJoCo hides by default cannot be asked for at the start (groups_refuted); TAB during a pause changes no frame until the pause ends (camera_refuted); a viewer without window that starts paused never returns (returns_refuted). The proved theorems say what holds outside of these cases. |
| C156 | The viewers return and show pictures of the right size, orientation and colours | View | partial | Pictures are lists of rows; the theorems follow by computation on lists, for the windows by induction over histories of displays and closes. **Note:** Refuted: a size that exceeds the buffer in one direction only gives frames larger than asked for (size_refuted); after a change of model the frames need not fit into the new buffer and the offscreen buffer is not selected again (new_model_refuted, with a new context that uses the window's buffer, which is an assumption about MuJoCo; the size part needs no assumption); pictures of pybullet in windows that are not square have width and height exchanged and the pixels out of place (bullet_refuted, bullet_pixels_refuted); a smaller image leaves the rest of the earlier one (image_refuted); steps below a millisecond make the cv2 viewer wait for a key (wait_refuted). A window whose framebuffer is larger than its size in screen coordinates is not modelled. |
| C157 | Advantages are unbiased when the critic is exact | ValueFn | partial | Expectation over the rest of a trajectory by recursion on the number of steps allowed; the arrays of the dataset are reduced to the trajectory of the step with C33 and C34; induction with the Bellman equation. **Note:** Refuted for compute_advantage_montecarlo when a trajectory is ended by the horizon inside the dataset: the return of the next trajectory is added (C34), so that the expected advantage is wrong although the critic is exact. compute_advantage is compute_gae with lambda = 0 (C33_lambda_zero). |
| C158 | Prioritized replay draws transitions in proportion to their priorities, and the weights undo it | Memory | partial | The values that lead to a slot are an interval of the length of its priority (from C18), up to finitely many points; Lebesgue measure of the intersections with the segments, summed over the batch; concrete trees with the measure computed for each result of the coins. **Note:** Proved when no two sibling nodes of the tree have the same positive sum, for the weights before they are divided by the largest one of the batch (the returned weights are these times a positive number that depends on the batch). Refuted in general: with priorities 1, 2, 2, 1 the last transition is drawn with probability 1/3 and the one before it, with twice its priority, with probability 1/6, because a tie is broken by a coin and the drawn value is not reduced; with three slots, two filled with equal priorities, one draw in four leads to the empty slot (IndexError); with the division by the largest weight of the batch, as get returns them, the weighted sum is biased for beta = 1. |
| C159 | Weighted Q-learning converges to the optimal values | TD | partial | Robbins-Monro argument in two parts: the noise of the next states as for Q-learning; the samples only lower the target, by at most a capped function of the samples that is independent of the past and whose mean is bounded by the first absolute moment of the normal distribution. The squared weights of the targets vanish, so the variance reaches its floor. Refutation: misleading samples have a fixed positive probability, so the targets stay below the optimal value on average. **Note:** Proved: the standard deviations of all the pairs of live states end at exactly 1e-5, the table ends within 2 gamma \|A\| 1e-5 / (1 - gamma) of the optimal values, and the greedy actions become optimal if the optimal values of the other actions are further away than twice that. Refuted: because the variance is never below 1e-10, in a problem with one state and two actions the table converges to the optimal values with probability zero, whatever rates, exploration and precision are. |
| C160 | Speedy Q-learning converges to the optimal values | TD | partial | Q-learning: the two tables agree in every row but that of the last state. Refutation: along almost every history both sides are visited with divergent rates (martingale convergence of the centred tosses); if the table converged to zero, every visit of the left state would raise its value by at least alpha / 20 from some visit on, whose sum diverges. **Note:** Proved: the agent is plain Q-learning, with the same limits, as long as no update bootstraps from the state of the update just before it. Refuted in general: the second table is the table before the last update, whatever pair that was, so the correction term (1 - alpha) * (target_cur - target_old), which is not scaled by the learning rate, passes the noise of the last update on to the pair that happens to be updated next. In a problem with a middle state from which a fair coin leads to the left (reward 1) or to the right (reward -1) and back (all optimal values are 0), with the rate DecayParameter(1, exp=1), the table converges to the optimal values with probability zero. |
| C161 | RQ-learning converges to the optimal values | TD | partial | The rewards by the Robbins-Monro lemma with contraction factor 0. The next values by the perturbed contraction lemma: an absorbing transition is an update towards the present value, so the mean target contracts with factor 1 - c (1 - gamma), where c is the smallest positive probability of going on, up to the vanishing error of the rewards; pairs that never go on keep the value 0. **Note:** Proved in every problem, with independent rates for the reward and for the next value: the table converges almost surely to the optimal values (or the values of the policy) of the problem in which episodes are not ended by chance (RandomMDP.unended: every pair keeps its mean reward, and goes on surely if it can go on). These are the right values if each pair ends the episode always or never; with delta=1 the agent is then plain Q-learning. Refuted in general: an absorbing transition leaves the estimate of the next value as it is instead of moving it to zero, so the probability of ending is ignored. In a problem with a safe action (reward 0.9) and a risky one (reward 1, ends the episode with probability 1/2), gamma 1/2, the table converges to 1.9 and 2 (the optimal values are 1.8 and 1.45) for every exploration, so from some update on the greedy action is the wrong one with probability one. |
| C162 | R-learning learns the largest average reward | TD | partial | Settling: the noise of the targets, cut off at every natural number, has convergent weighted sums (martingale lemma of C145); a convergent average with diverging rates has the limit of its targets. The optimality equation: the best and the greedy sums of n steps differ from n rho + V by at most max \|V\|, by induction on n. The refutations: invariants of the updates. **Note:** Proved: the estimate changes only when the updated action is greedy after the update, by beta (1 - alpha) times the temporal difference, so never with learning rate 1. In a problem without ends, with Robbins-Monro rates for the values and any beta known from the past, the agent can settle only where the optimality equation of the average reward holds (with probability one, if table and estimate converge, their limits solve it), and a solution is the largest long-run average from every live state and is earned by every greedy policy. Not proved: that the agent converges. Refuted in problems with ends: the next value of an absorbing transition is 0 and not the value of the start of the next episode, so if every step is an episode with reward 1 the estimate stays at most 1 - alpha_0 for all rates, and with learning rate 1 the greedy action is for ever the one with reward 3/2 in two steps instead of the one with reward 1 in one step. |
| C163 | Observations of MuJoCo environments tell and set the state of the simulator | Wrap | partial | Views as get/put laws on the data; the loop of _modify_data by induction on the specification with the fill lemma of C63; the data after a substep depend on the joints only. **Note:** Proved: what is written is read back and nothing else changes, but for velocities of bodies; only joints have an effect on the simulation; without velocities of bodies and without repetitions reset(obs) returns obs and changes nothing that is not in the specification or was removed from it; with all the joints it restores the simulation. Refuted: velocities of bodies are written to a temporary array and lost without an error; reset(obs) returns the asked-for positions of bodies and sites but the simulation is where it is after reset(); of two entries for one joint the last wins; no forward computation follows a reset or a step, so positions of bodies and sites in an observation lag behind the joints by one substep, and after a reset they are what mj_resetData left. Assumed of MuJoCo: a substep of mj_step is the forward computation followed by the integration (Euler), and mj_resetData does no forward computation. |
| C164 | The plot window shows what is ticked, with its limits | Misc | partial | An invariant that the things in each plot are a permutation of those of the ticked curves, with distinct line objects, kept by draw and erase; simulation of the window of C117. **Note:** Proved: for every sequence of clicks the layout and the contents of the plots agree with the ticks (C164_screen), when a plot can be made (C164_new), that there are enough colours for up to 206^3 curves and what the curves look like. Refuted: dotted limits are drawn at 1 and -1, not at the given heights; the lists of the caller are changed (infinite limits become None); drawing a curve twice without the window leaves a limit line behind; the colours are chosen anew for every curve, so two curves of one plot can get the same colour. |
| C165 | What the distributional agents learn | DQN | partial | The loss of a batch with equal predictions (C124) is a sum over the levels; each term lies between its tangent and its tangent plus a parabola, so that the minimisers are the zeros of the slope; counting. Gibbs' inequality for the cross-entropy. **Note:** Proved: the predictions are quantiles up to 1 (the width of the quadratic part of the Huber loss), and exactly if no target is closer than 1 and different; among predictions with probabilities of at least 1e-5 the mean of the target distributions is the only minimiser, if its probabilities are at least 1e-5. Refuted in general: with the targets 0 and 1/2 the prediction for the level 1/4 is 1/8 (an expectile), and the clamp at 1e-5 makes a smaller probability than that of the target better. Predictions are taken to be free for each state and action (a network with enough capacity). |
| C166 | Q(lambda) gives no credit through exploratory actions | TD | partial | The reference algorithm is a separate definition; induction on the episode. **Note:** Proved for episodes in which all the actions after the first are greedy when they are executed: the agent does exactly what Watkins' Q(lambda) does. Refuted in general: the traces are never cut, so that one exploratory action with a bad reward destroys the optimal value of the pair before it (1 becomes 0), which Watkins' algorithm keeps. |
| C167 | Agents that are special cases of each other cannot be told apart | TD | proved | A simulation theorem for Core (Core/Sim.lean: if all the plugged-in parts of two programs answer alike in related worlds, whole sessions agree) and an invariant that relates the two agents. **Note:** For the first pair the policy and the learning rate must not share random numbers or parameters, because the two classes read the rate and draw the next action in different orders; lambda is a constant. n_steps_per_fit must be 1, otherwise TD.fit raises AssertionError (in the model the agent then stays as it is). |
| C168 | Callbacks that only observe do not change a run | Core | proved | Simulation theorem of Core/Sim.lean, after joining the fit callbacks into one. **Note:** Callbacks are functions of their own memory, the world and the sample or dataset. Exceptions inside callbacks are not modelled. |
| C169 | When deep Q-learning agents of different classes learn the same | DQN | proved | A relation between the networks of the two agents that makes their targets equal and survives every update (runFits_alike), with the targets of C89; two witnesses with an agent that learns by heart. **Note:** Networks are functions of their weights over the reals. The classes are compared through AbstractDQN.fit; a sequence of fits stands for any run of Core.learn, which hands the datasets to the agent. |
| C170 | One call of learn or evaluate can be replaced by two | Core | partial | The long run passes through the final state of the first call; from there the two runs differ only by constant offsets of counters, rows and trace, which commute with every step of the loop (loop_shift). Two counterexamples evaluated by the kernel. **Note:** True of evaluations by episodes and from initial states, and of learning by episodes if n_episodes_per_fit divides a; true of steps (with a multiple of n_steps_per_fit) only if the first call happens to end with an episode. Refuted in general: the second call resets the environment in the middle of an episode, and transitions that were not yet fitted at the end of the first call are dropped. agent.stop() and env.stop() between the calls are taken to do nothing to the behaviour of either. |
| C171 | What SAC learns | ActorCritic | proved | SpecSoft.lean defines problems, densities, the objective over n steps and its limit; LemmasSoft.lean proves that soft values are the only solution of the soft Bellman equation (contraction), the variational principle of Gibbs, and the expectations of the modelled targets and losses by the law of the drawn actions. PropsSoftGauss.lean derives the density of the squashed normal policy from C91_density and a product formula. **Note:** Targets and losses are those of the modelled SAC (targets, actorLoss) for one transition; expectations are over the next state and the noise of the policy. policy shows that the squashed normal policy of the code meets the assumptions, for a stabilising constant of zero instead of 1e-6, and that its entropy is the one of actions scaled to limits of -1 and 1 (see C91). Not covered: that gradient descent reaches the minima, that networks and squashed normal densities can represent them, a temperature that changes. |
| C172 | What DDPG and TD3 learn | ActorCritic | proved | SpecPlain.lean defines the return over n steps and its limit for any stochastic policy, and the expected target; PropsPlain.lean shows that values are the only solution of the Bellman equation and that functions that nearly solve it from below or above are close to them; the theorems follow by comparing the expected targets with the Bellman operators of the actor, of the noisy policy and of any other policy. **Note:** Targets and losses are those of the modelled DDPG and TD3 (bellman, ddpgNextQ, td3NextQ, actorLoss) for one transition; expectations are over the next state and the state of the random generator. td3_misled is a concrete agent with normal noise. ddpg_moving and td3_moving are about the target networks of the modelled agents (moveTargets). Not covered: that gradient descent reaches small errors, and an actor that moves during evaluation. |
| C173 | What the deep Q-learning agents learn | DQN | proved | SpecLearned.lean defines the expected target of an agent's own target function and the problem with clipped rewards; optimality is the specification of C145. The expected targets are the Bellman operator applied to the largest prediction, the prediction of the action chosen by the network, the mean or the minimum; the operator contracts. For AveragedDQN an invariant says which update wrote each network in use and how small its error is. **Note:** Targets, fit and target updates are those of the modelled agents. That a network comes close to the expected targets is a hypothesis: gradient descent is not modelled. In the runs it is only required at the calls that update the target network. |
| C174 | Conversions of rotations | Utils | partial | SpecRot.lean defines rotation matrices and the rotation of a quaternion by Rodrigues' formula. The matrix of a product of quaternions is the product of their matrices; half-angle formulas; the entries of a rotation matrix are its cofactors, from which the angles reproduce it; unit quaternions of the same rotation have the same products of components. **Note:** scipy's Rotation is modelled from its documentation, with exact reals and no tolerance for gimbal locks. Refuted: euler_to_mat takes one vector per row of a two-dimensional array, the quaternion functions one per column; for three vectors at once they silently describe different rotations. |
| C175 | Callbacks with parallel environments | Vector | partial | The loop with callbacks is a second copy of the loop; a simulation shows that it follows the loop without callbacks in a world with room for the callbacks' memory. A journal of the calls is an invariant of every iteration. CollectDataset: invariant, with the delivery invariant of C24 at each fit. **Note:** Refuted: CollectDataset flattens the whole vectorized dataset, so that the transitions a fit leaves behind are collected twice if n_steps_per_fit is not a multiple of the number of environments; the step callback is not handed the mask and also receives the samples, with rewards from uninitialised memory, of the environments that are not being stepped. Proved for n_episodes_per_fit and for multiples of the number of environments. |
| C176 | Mean curves and confidence bands | Stats | partial | SpecBand.lean defines the t statistic and the p-value. The band is \|t\| at most the 97.5% quantile; its probability is F(q) - F(-q) by continuity of F. PropsBandDemo.lean instantiates the theorem with Cauchy's law and two random runs. **Note:** Refuted: at an epoch at which all the runs agree (or with one run) the band is NaN. scipy is modelled from its documentation; of Student's law only continuity, strict monotonicity, symmetry and the inverse are used. That independent normal runs have this law is assumed, and shown for a pair of runs. |
| C177 | What PGPE follows | Search | proved | SpecPgpe.lean defines independent episodes with parameters from the normal law and the expected return. Expectations are differentiated by writing the densities for nearby parameters as an exponential family, or, for the Cholesky factor, under the integral sign with a wider normal density as bound; the scores have mean zero; the strong law of large numbers gives the limits of the averages, and the baseline is bounded by the bound on the returns, so that its term vanishes. rounds_exist constructs such episodes, for a success/failure return. **Note:** Returns are assumed bounded; real numbers stand for floats. |
| C178 | What RWR improves | Search | proved | SpecRwr.lean judges the independent episodes of SpecPgpe.lean by the exponential of beta times the return. The strong law of large numbers gives the limits of the weighted means and variances, the maximum subtracted from the returns cancels (C58), and the improvement follows from exp(x) >= 1 + x applied to the ratio of the log-densities. With a full covariance the gain is the Gaussian divergence, which vanishes only for equal parameters, and matrices that converge to a positive definite one are eventually positive definite. utilities_exist constructs such episodes, rounds_random episodes whose returns also depend on chance; a gamble with a negative expected return and a large expected exponential is the case in which the expected return falls. **Note:** Beta times the returns is bounded above only; real numbers stand for floats. With a full covariance np.linalg.cholesky is assumed to give a Cholesky factor of every positive definite matrix; cholesky_exists shows that such a function exists. |
| C179 | When the fit of a full covariance fails | Search | partial | ModelFit.lean models mle and con_wmle as changes of the object. The quadratic form of the weighted covariance is a weighted sum of squares, which vanishes for a direction exactly if all the parameters have the same component in it; a linear map to fewer dimensions has a kernel. That the draws are in general position is proved by induction over the draws with the theorem of Fubini: a proper subspace has measure zero. **Note:** Refuted for the last sentence: mle writes the new mean before it computes the Cholesky factor, so after the LinAlgError the mean is the new one and the covariance the old one. The constrained update con_wmle leaves the distribution unchanged. Real numbers stand for floats; np.linalg.cholesky is assumed to give a Cholesky factor of every positive definite matrix and to raise otherwise. |
| C180 | REPS keeps to its bound when there are many episodes | Search | proved | LemmasReps.lean: for bounded returns the weights for converging multipliers have the limits of those for the limit, so the law of large numbers applies. The weighted mean and covariance are the moments of the weighted law, so the divergence of the new Gaussian is the gain in the expected log-density, which is at most the divergence of the weighted law by the inequality of Gibbs (Rounds.gibbs); at a stationary point of the dual function this divergence is eps. PropsRepsMultiplier.lean: the derivative of the dual function is increasing, strictly in the limit, by Jensen's inequality. PropsRepsMinimum.lean: the derivative changes its sign near the limit. **Note:** For finitely many episodes the bound on the divergence is refuted by C97_kl_refuted. The minimiser of scipy is an argument that must find points where the derivative of the dual function tends to zero. Real numbers stand for floats; np.linalg.cholesky is assumed to give a Cholesky factor of every positive definite matrix. |
| C181 | Repeated updates of RWR settle | Search | proved | By C178 the expectation grows at least by the exponential of the divergence; the logarithms telescope. Limits are unique, so the limit of an update is the weighted distribution of C178. limitUpdates_exist shows that such sequences exist. **Note:** For the Gaussian with a full covariance. The updates are idealised to their almost sure limits as the number of episodes grows (LimitUpdate); that the limits exist is C178. The distributions themselves need not converge. Real numbers stand for floats; np.linalg.cholesky is assumed to give a Cholesky factor of every positive definite matrix. |
| C182 | Calls after an exception start afresh | Core | proved | Left lists the assignments done at each place; the first iteration of a run overwrites or resets every field, so a run depends on the past only through the world. The claims before the exception follow from the invariants of C03 and C05, which hold between iterations, and closure under prefixes. **Note:** What the agent and the environment themselves look like after the exception is up to them (the world is arbitrary). Not included: videos (an interrupted recording is C126), progress bars and agent.stop/env.stop, which are not called after an exception. VectorCore keeps the fit period of earlier calls (C23). |
| C183 | Programs that are killed, or fail, while they log | Misc | partial | Disks are functions from names to contents, a killed call is a number of closed files and perhaps one that was opened. Invariant: no file is broken after complete calls. **Note:** Proved: at most the one file that was being written is broken; all files the interrupted call does not write are as they were and those it had closed are complete; between two files nothing is broken. False: every file is written in place, so that the earlier best agent, or the earlier values, are lost if the program is killed while the file is written, and append=True then raises. If saving an agent raises, its performance has already been stored: later agents that are better than all saved ones are not saved, and load returns None for the remains in the file. Caches of the operating system are not modelled. |
