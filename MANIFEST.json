{
 "claims": [
  {
   "property": "C01",
   "status": "proved",
   "theorems": [
    "Verif.Core.C01_learn_by_steps"
   ],
   "note": "Termination, exact counts and exact position and content of every fit, for every N and k>=1."
  },
  {
   "property": "C02",
   "status": "proved",
   "theorems": [
    "Verif.Core.C02_learn_by_episodes"
   ],
   "note": "Finite horizon (Dataset.generate asserts it); every N, k>=1."
  },
  {
   "property": "C03",
   "status": "proved",
   "theorems": [
    "Verif.Core.C03_chained",
    "Verif.Core.C03_learn",
    "Verif.Core.C03_evaluate",
    "Verif.Core.C03_episode_length",
    "Verif.Core.C03_preprocess_order"
   ],
   "note": "At every point of every run."
  },
  {
   "property": "C04",
   "status": "proved",
   "theorems": [
    "Verif.Core.C04_evaluate_history",
    "Verif.Core.C04_evaluate_steps",
    "Verif.Core.C04_evaluate_episodes",
    "Verif.Core.C04_evaluate_initial_states"
   ],
   "note": ""
  },
  {
   "property": "C05",
   "status": "proved",
   "theorems": [
    "Verif.Core.C05_blocks",
    "Verif.Core.C05_learn",
    "Verif.Core.C05_learn_rejects",
    "Verif.Core.C05_evaluate_rejects"
   ],
   "note": ""
  },
  {
   "property": "C06",
   "status": "proved",
   "theorems": [
    "Verif.Core.C06_learn_no_overflow",
    "Verif.Core.C06_rows_le_capacity",
    "Verif.Core.C04_evaluate_steps",
    "Verif.Core.C04_evaluate_episodes",
    "Verif.Core.C04_evaluate_initial_states"
   ],
   "note": "Fit periods of 0 are excluded: the code then allocates no row and the first step raises (example beside the theorem)."
  },
  {
   "property": "C07",
   "status": "proved",
   "theorems": [
    "Verif.Dataset.C07_append_clear",
    "Verif.Dataset.C07_new",
    "Verif.Dataset.C07_overflow_raises",
    "Verif.Dataset.C07_getitem",
    "Verif.Dataset.C07_slice",
    "Verif.Dataset.C07_negative_index_refuted",
    "Verif.Dataset.C07_negative_slice_refuted"
   ],
   "note": "Proved as stated (indices in [0,len)). Beyond the statement, negative indices and negative slice bounds read uninitialised rows: machine-checked counterexamples."
  },
  {
   "property": "C08",
   "status": "proved",
   "theorems": [
    "Verif.Dataset.C08_compute_J",
    "Verif.Dataset.C08_compute_J_empty",
    "Verif.Dataset.episodes_exist_unique"
   ],
   "note": ""
  },
  {
   "property": "C09",
   "status": "proved",
   "theorems": [
    "Verif.Dataset.C09_episodes_length",
    "Verif.Dataset.C09_n_episodes",
    "Verif.Dataset.C09_compute_metrics"
   ],
   "note": "The median is not modelled."
  },
  {
   "property": "C10",
   "status": "proved",
   "theorems": [
    "Verif.Dataset.C10_select_first_episodes",
    "Verif.Dataset.C10_get_init_states"
   ],
   "note": ""
  },
  {
   "property": "C100",
   "status": "partial",
   "theorems": [
    "Verif.Misc.C100_parse_partial",
    "Verif.Misc.C100_succeeds",
    "Verif.Misc.C100_parse_refuted",
    "Verif.Misc.C100_clash_refuted",
    "Verif.Misc.C100_keyless_refuted",
    "Verif.Misc.C100_copy_partial",
    "Verif.Misc.C100_copy_refuted",
    "Verif.Misc.C100_add",
    "Verif.Misc.C100_add_partial",
    "Verif.Misc.C100_add_refuted",
    "Verif.Misc.C100_view",
    "Verif.Misc.C100_shared_partial",
    "Verif.Misc.C100_shared_refuted"
   ],
   "note": "Holds if every step has the same keys and no joined keys clash. A key that appears after a parse raises KeyError, clashing keys overwrite each other, copies drop the structured storage and additions reorder waiting steps (counterexamples). Views share the dictionary of names with their original: a step with a new key that is appended to a view makes every later parse of the original raise (counterexample)."
  },
  {
   "property": "C101",
   "status": "proved",
   "theorems": [
    "Verif.Explore.C101_ou",
    "Verif.Explore.C101_ou_start",
    "Verif.Explore.C101_ou_stable",
    "Verif.Explore.C101_ou_law",
    "Verif.Explore.C101_ou_stationary",
    "Verif.Explore.C101_clipped",
    "Verif.Explore.C101_clipped_law",
    "Verif.Explore.C101_deterministic"
   ],
   "note": "The laws assume that randn returns independent standard normal numbers."
  },
  {
   "property": "C102",
   "status": "partial",
   "theorems": [
    "Verif.Explore.C102_time_partial",
    "Verif.Explore.C102_promp_refuted",
    "Verif.Explore.C102_duration_refuted",
    "Verif.Explore.C102_equilibrium",
    "Verif.Explore.C102_unforced",
    "Verif.Explore.C102_converges",
    "Verif.Explore.C102_phase_refuted",
    "Verif.Explore.C102_actions_refuted",
    "Verif.Explore.C102_agent_refuted",
    "Verif.Explore.C102_agent_partial"
   ],
   "note": "ProMP.draw_action always raises, no agent can be constructed with a DMP, set_duration(d) is the same as constructing it with d - 1, the canonical system of a DMP is driven by the weights and DMPs return their internal array (counterexamples). The phase of ProMPs, the equilibrium and the convergence of unforced DMPs are proved."
  },
  {
   "property": "C103",
   "status": "partial",
   "theorems": [
    "Verif.Wrap.C103_calls",
    "Verif.Wrap.C103_reset",
    "Verif.Wrap.C103_step",
    "Verif.Wrap.C103_skip_partial",
    "Verif.Wrap.C103_skip_refuted",
    "Verif.Wrap.C103_reward_refuted",
    "Verif.Wrap.C103_gymnasium_partial",
    "Verif.Wrap.C103_gymnasium_skip_refuted",
    "Verif.Wrap.C103_gymnasium_reset_refuted"
   ],
   "note": "The pooled frame is stale if the game ends inside a skip, rewards of forced actions are lost, and the Gymnasium version fails with frame skipping and for episodes that end before the game (counterexamples). Everything else is proved."
  },
  {
   "property": "C104",
   "status": "partial",
   "theorems": [
    "Verif.Wrap.C104_plain",
    "Verif.Wrap.C104_override",
    "Verif.Wrap.C104_actuators",
    "Verif.Wrap.C104_history",
    "Verif.Wrap.C104_clock",
    "Verif.Wrap.C104_action_space",
    "Verif.Wrap.C104_all_actuators",
    "Verif.Wrap.C104_collision",
    "Verif.Wrap.C104_force_partial",
    "Verif.Wrap.C104_force_reported",
    "Verif.Wrap.C104_force_refuted"
   ],
   "note": "Refuted: with several contacts between the groups the collision force is that of the first contact, not the total. Overridden methods are pure functions. That the returned array is the stored one (if _modify_observation is not overridden) is not modelled."
  },
  {
   "property": "C105",
   "status": "partial",
   "theorems": [
    "Verif.Wrap.C105_clean",
    "Verif.Wrap.C105_sequential",
    "Verif.Wrap.C105_actions",
    "Verif.Wrap.C105_identifier",
    "Verif.Wrap.C105_identifier_injective",
    "Verif.Wrap.C105_reset_refuted",
    "Verif.Wrap.C105_timestep_refuted",
    "Verif.Wrap.C105_limits_refuted"
   ],
   "note": "reset returns only the observation, which Core cannot unpack; the timestep is set for the first model only; the check of the observation limits compares the first model with itself (counterexamples). Everything else is proved."
  },
  {
   "property": "C106",
   "status": "partial",
   "theorems": [
    "Verif.Wrap.C106_gym_partial",
    "Verif.Wrap.C106_gym_refuted",
    "Verif.Wrap.C106_gym_steps",
    "Verif.Wrap.C106_gymnasium",
    "Verif.Wrap.C106_horizon",
    "Verif.Wrap.C106_reset_refuted",
    "Verif.Wrap.C106_dm_partial",
    "Verif.Wrap.C106_dm_refuted",
    "Verif.Wrap.C106_minigrid_refuted",
    "Verif.Wrap.C106_habitat",
    "Verif.Wrap.C106_igibson_partial",
    "Verif.Wrap.C106_igibson_refuted"
   ],
   "note": "Proved for gymnasium and Habitat, gym with one time limit, dm_control without pixels and iGibson with its default horizon. Refuted: a second gym time limit stays; dm_control with pixels and MiniGrid change an attribute of a wrapper only; iGibson makes a given horizon the limit of the simulator; reset(state) of Gym and Gymnasium sets an attribute of the outermost wrapper, so that the environment continues from its own initial state."
  },
  {
   "property": "C107",
   "status": "partial",
   "theorems": [
    "Verif.Wrap.C107_vector",
    "Verif.Wrap.C107_pixels",
    "Verif.Wrap.C107_simulators_partial",
    "Verif.Wrap.C107_simulators_refuted",
    "Verif.Wrap.C107_minigrid",
    "Verif.Wrap.C107_minigrid_shape",
    "Verif.Wrap.C107_fixed_seed_refuted"
   ],
   "note": "Refuted: iGibson and Habitat declare width before height; MiniGrid never uses fixed_seed."
  },
  {
   "property": "C108",
   "status": "partial",
   "theorems": [
    "Verif.Vector.Single.C108_step_partial",
    "Verif.Vector.Single.C108_reset_partial",
    "Verif.Vector.Single.C108_default",
    "Verif.Vector.Single.C108_action_refuted",
    "Verif.Vector.Single.C108_initial_states_refuted",
    "Verif.Vector.Single.C108_evaluate_refuted"
   ],
   "note": "Only with a matrix of actions and without states. Refuted: an action of one environment is rejected; the workers take the first number of their row of the states; every reset of VectorCore.evaluate(initial_states) fails."
  },
  {
   "property": "C109",
   "status": "partial",
   "theorems": [
    "Verif.Wrap.Space.C109_box_numbers",
    "Verif.Wrap.Space.C109_box_rejects",
    "Verif.Wrap.Space.C109_box_partial",
    "Verif.Wrap.Space.C109_shape_refuted",
    "Verif.Wrap.Space.C109_discrete",
    "Verif.Wrap.Space.C109_bound",
    "Verif.Wrap.Space.C109_list",
    "Verif.Wrap.Space.C109_make",
    "Verif.Wrap.Space.C109_names"
   ],
   "note": "Refuted: arrays and a shape that does not match are accepted, and the shape changes when the box is saved and loaded."
  },
  {
   "property": "C11",
   "status": "partial",
   "theorems": [
    "Verif.Dataset.C11_add_partial",
    "Verif.Dataset.C11_episode_count",
    "Verif.Dataset.C11_empty_left_refuted",
    "Verif.Dataset.C11_empty_empty_raises"
   ],
   "note": "False for an empty left operand: the flag of the last row of the right operand is set (counterexample), and empty + empty raises."
  },
  {
   "property": "C110",
   "status": "partial",
   "theorems": [
    "Verif.Wrap.Bullet.C110_joint",
    "Verif.Wrap.Bullet.C110_names_refuted",
    "Verif.Wrap.Bullet.C110_observation",
    "Verif.Wrap.Bullet.C110_limits",
    "Verif.Wrap.Bullet.C110_joint_values",
    "Verif.Wrap.Bullet.C110_control_partial",
    "Verif.Wrap.Bullet.C110_unknown_refuted",
    "Verif.Wrap.Bullet.C110_contact_partial",
    "Verif.Wrap.Bullet.C110_self_contact_refuted",
    "Verif.Wrap.Bullet.C110_step",
    "Verif.Wrap.Bullet.C110_reset"
   ],
   "note": "Refuted: names in the actuation specification that are not movable joints are left out, so that later joints receive the components of others; contacts inside one model depend on the order of the names; of two models with the same name only the last can be used."
  },
  {
   "property": "C111",
   "status": "partial",
   "theorems": [
    "Verif.Approx.Fit.C111_split",
    "Verif.Approx.Fit.C111_epoch",
    "Verif.Approx.Fit.C111_losses",
    "Verif.Approx.Fit.C111_weights",
    "Verif.Approx.Fit.C111_early_stopping",
    "Verif.Approx.Fit.C111_terminates",
    "Verif.Approx.Fit.C111_plain",
    "Verif.Approx.Fit.C111_reinitialize",
    "Verif.Approx.Fit.C111_rejected_refuted",
    "Verif.Approx.Fit.C111_rejected_partial"
   ],
   "note": "Refuted: a call rejected for its validation_split has already reinitialised the weights and leaves dropout active. Losses are real numbers: NaN losses are outside the model."
  },
  {
   "property": "C112",
   "status": "partial",
   "theorems": [
    "Verif.Search.Torch.C112_gaussian_policy",
    "Verif.Search.Torch.C112_std0",
    "Verif.Search.Torch.C112_weights",
    "Verif.Search.Torch.C112_recurrent_partial",
    "Verif.Search.Torch.C112_entropy_refuted",
    "Verif.Search.Torch.C112_squeeze_refuted",
    "Verif.Search.Torch.C112_squeeze_partial",
    "Verif.Search.Torch.C112_boltzmann",
    "Verif.Search.Torch.C112_boltzmann_entropy",
    "Verif.Search.Torch.C112_shapes_partial",
    "Verif.Search.Torch.C112_shapes_refuted",
    "Verif.Search.Torch.C112_diagonal",
    "Verif.Search.Torch.C112_cholesky_partial",
    "Verif.Search.Torch.C112_cholesky_refuted"
   ],
   "note": "Refuted: recurrent policies limit the standard deviation in the density but not in the entropy, and cannot evaluate actions with one component; Boltzmann torch policies return a flat vector for several states; Cholesky torch distributions accept parameters without a density."
  },
  {
   "property": "C113",
   "status": "partial",
   "theorems": [
    "Verif.Features.Tensor.C113_shapes_partial",
    "Verif.Features.Tensor.C113_shapes_refuted",
    "Verif.Features.Tensor.C113_basis",
    "Verif.Features.Tensor.C113_computes",
    "Verif.Features.Tensor.C113_agree_partial",
    "Verif.Features.Tensor.C113_agree_refuted",
    "Verif.Features.Tensor.C113_size",
    "Verif.Features.Tensor.C113_generate_partial",
    "Verif.Features.Tensor.C113_gaussian",
    "Verif.Features.Tensor.C113_normalized",
    "Verif.Features.Tensor.C113_von_mises_partial",
    "Verif.Features.Tensor.C113_cyclic_partial",
    "Verif.Features.Tensor.C113_cyclic_refuted",
    "Verif.Features.Tensor.C113_fourier",
    "Verif.Features.Tensor.C113_concatenate",
    "Verif.Features.Tensor.C113_factory",
    "Verif.Features.Tensor.C113_functional"
   ],
   "note": "Refuted: a single torch feature raises an exception or loses its axis; basis tensors with one centre cannot be computed; von Mises features have period one whatever the length of the cyclic space."
  },
  {
   "property": "C114",
   "status": "partial",
   "theorems": [
    "Verif.Search.Eppo.C114_batch",
    "Verif.Search.Eppo.C114_single_refuted",
    "Verif.Search.Eppo.C114_epoch",
    "Verif.Search.Eppo.C114_first",
    "Verif.Search.Eppo.C114_pessimistic",
    "Verif.Search.Eppo.C114_equal",
    "Verif.Search.Eppo.C114_shift",
    "Verif.Search.Eppo.C114_steps",
    "Verif.Search.Eppo.C114_gradient",
    "Verif.Search.Eppo.C114_context_refuted",
    "Verif.Search.Eppo.C114_ratio_refuted"
   ],
   "note": "Refuted: a single episode gives NaN; with contexts the old log-densities ignore them, and the update raises an exception because the entropy is one number for each context."
  },
  {
   "property": "C115",
   "status": "partial",
   "theorems": [
    "Verif.Serialization.Table.C115_lossy_classes",
    "Verif.Serialization.Table.C115_lossy_unread",
    "Verif.Serialization.Table.C115_loaded_partial",
    "Verif.Serialization.Table.C115_loaded_all_partial",
    "Verif.Serialization.Table.C115_lost_refuted",
    "Verif.Serialization.Table.C115_loaded_dataset_refuted"
   ],
   "note": "Proved for all classes outside two explicit lists; the lists are proved to be exact with respect to the table of the classes. Refuted for the classes in the lists: DeepAC, PPO_BPTT, MORE, Regressor, ExtraInfo (hence datasets), ListDataset, TorchDataset, RecurrentGaussianTorchPolicy, AdamOptimizer."
  },
  {
   "property": "C116",
   "status": "partial",
   "theorems": [
    "Verif.Memory.C116_replay_partial",
    "Verif.Memory.C116_replay_refuted",
    "Verif.Memory.C116_prioritized_partial",
    "Verif.Memory.C116_prioritized_refuted",
    "Verif.Memory.C116_prioritized_add_refuted",
    "Verif.Memory.C116_prioritized_misplaced_refuted"
   ],
   "note": "Refuted: a fully saved ReplayMemory has no dataset after loading; a loaded PrioritizedReplayMemory has priorities but no transitions, so that sampling raises IndexError, and new transitions are stored away from their priorities."
  },
  {
   "property": "C117",
   "status": "partial",
   "theorems": [
    "Verif.Misc.Callbacks.C117_collected_values",
    "Verif.Misc.Callbacks.C117_list_kept",
    "Verif.Misc.Callbacks.C117_collected_parameters",
    "Verif.Misc.Callbacks.C117_plots",
    "Verif.Misc.Callbacks.C117_curves",
    "Verif.Misc.Callbacks.C117_max_partial",
    "Verif.Misc.Callbacks.C117_max_refuted",
    "Verif.Misc.Callbacks.C117_clean_partial",
    "Verif.Misc.Callbacks.C117_clean_refuted",
    "Verif.Misc.Callbacks.C117_prediction_refuted"
   ],
   "note": "Refuted: CollectMaxQ and CollectQ disagree on ensembles whose prediction is not the mean; CollectDataset.clean() before the first call raises AttributeError; Table.predict(state) returns a view that changes with the table."
  },
  {
   "property": "C118",
   "status": "partial",
   "theorems": [
    "Verif.Hockey.C118_flags",
    "Verif.Hockey.C118_flags_double_partial",
    "Verif.Hockey.C118_flags_double_refuted",
    "Verif.Hockey.C118_get_ee_refuted",
    "Verif.Hockey.C118_position",
    "Verif.Hockey.C118_velocity_refuted",
    "Verif.Hockey.C118_absorbing",
    "Verif.Hockey.C118_position_in_frame",
    "Verif.Hockey.C118_velocity_in_frame_partial",
    "Verif.Hockey.C118_velocity_in_frame_refuted",
    "Verif.Hockey.C118_constraints_partial",
    "Verif.Hockey.C118_constraints_refuted",
    "Verif.Hockey.C118_rotation",
    "Verif.Hockey.C118_hit_start",
    "Verif.Hockey.C118_fixed_start",
    "Verif.Hockey.C118_moving_start",
    "Verif.Hockey.C118_prepare_start",
    "Verif.Hockey.C118_start_covers",
    "Verif.Hockey.C118_arm",
    "Verif.Hockey.C118_random_arm_refuted",
    "Verif.Hockey.C118_bounce_point",
    "Verif.Hockey.C118_hit_reward",
    "Verif.Hockey.C118_hit_approach",
    "Verif.Hockey.C118_hit_speed_refuted",
    "Verif.Hockey.C118_defend_reward",
    "Verif.Hockey.C118_repel_reward_partial",
    "Verif.Hockey.C118_repel_reward_refuted",
    "Verif.Hockey.C118_prepare_reward_partial",
    "Verif.Hockey.C118_prepare_zone",
    "Verif.Hockey.C118_prepare_reward_refuted",
    "Verif.Hockey.C118_two_positions",
    "Verif.Hockey.C118_noisy_positions_refuted",
    "Verif.Hockey.C118_constraints_double_partial",
    "Verif.Hockey.C118_constraints_double_refuted"
   ],
   "note": "Refuted: get_puck mixes up linear and angular velocity, so the rewards for speed do not see the speed towards the goal; the second robot gets a wrong velocity; with two agents the second hit flag repeats the first and get_ee raises KeyError, and observation noise moves the puck in opposite directions for the two agents, so that their observations contradict each other; the joint position constraints use velocities and the end effector constraints allow positions beside the table; the arm is never initialised at random; a goal pays nothing in the repel task; the bonus of the prepare task is paid when the puck is lost."
  },
  {
   "property": "C119",
   "status": "partial",
   "theorems": [
    "Verif.Hockey.Bullet.C119_observation",
    "Verif.Hockey.Bullet.C119_observation_double",
    "Verif.Hockey.Bullet.C119_noise_refuted",
    "Verif.Hockey.Bullet.C119_space_refuted",
    "Verif.Hockey.Bullet.C119_space_size",
    "Verif.Hockey.Bullet.C119_dt_refuted",
    "Verif.Hockey.Bullet.C119_forward_kinematics",
    "Verif.Hockey.Bullet.C119_hit_flag_partial",
    "Verif.Hockey.Bullet.C119_hit_flag_refuted",
    "Verif.Hockey.Bullet.C119_contact_flags",
    "Verif.Hockey.Bullet.C119_absorbing",
    "Verif.Hockey.Bullet.C119_task_end",
    "Verif.Hockey.Bullet.C119_start",
    "Verif.Hockey.Bullet.C119_hit_reward",
    "Verif.Hockey.Bullet.C119_hit_speed_refuted",
    "Verif.Hockey.Bullet.C119_prepare_end_refuted",
    "Verif.Hockey.Bullet.C119_defend_reward",
    "Verif.Hockey.Bullet.C119_rewards_refuted"
   ],
   "note": "Refuted: observed positions lie outside of the declared space; the reported control period is always 0.1; observation noise, observation delay and environment noise all raise; hit flag and reward of the hit task and the end of the prepare task use the state before the step; a goal pays nothing in the repel task; the bonus of the prepare task is paid when the puck is lost."
  },
  {
   "property": "C12",
   "status": "partial",
   "theorems": [
    "Verif.Dataset.C12_collect_content",
    "Verif.Dataset.C12_collect_partial",
    "Verif.Dataset.C12_refuted"
   ],
   "note": "Exact content proved for every sequence of fits; equal to the run only if fits happen at ends of episodes, refuted for fits inside an episode."
  },
  {
   "property": "C120",
   "status": "proved",
   "theorems": [
    "Verif.Hockey.C120_reset",
    "Verif.Hockey.C120_reset_run",
    "Verif.Hockey.C120_return",
    "Verif.Hockey.C120_linear_movement",
    "Verif.Hockey.C120_settle"
   ],
   "note": ""
  },
  {
   "property": "C121",
   "status": "partial",
   "theorems": [
    "Verif.Approx.Reg.C121_select",
    "Verif.Approx.Reg.C121_generic",
    "Verif.Approx.Reg.C121_q",
    "Verif.Approx.Reg.C121_action",
    "Verif.Approx.Reg.C121_unknown_action_refuted",
    "Verif.Approx.Reg.C121_ensemble",
    "Verif.Approx.Reg.C121_ensemble_one",
    "Verif.Approx.Reg.C121_variance_partial",
    "Verif.Approx.Reg.C121_variance_refuted",
    "Verif.Approx.Reg.C121_variance_torch_refuted",
    "Verif.Approx.Reg.C121_variance_library_refuted",
    "Verif.Approx.Reg.C121_members_partial",
    "Verif.Approx.Reg.C121_members_refuted",
    "Verif.Approx.Reg.C121_iteration_refuted",
    "Verif.Approx.Reg.C121_table",
    "Verif.Approx.Reg.C121_table_set",
    "Verif.Approx.Reg.C121_table_actions",
    "Verif.Approx.Reg.C121_table_batch_refuted",
    "Verif.Approx.Reg.C121_table_entries_refuted",
    "Verif.Approx.Reg.C121_table_vector_refuted",
    "Verif.Approx.Reg.C121_table_one_refuted",
    "Verif.Approx.Reg.C121_table_fit_refuted"
   ],
   "note": "Refuted: the variance of a single input is dropped and the batch axis kept; with torch, variances of min and max raise; variances of numpy and torch ensembles differ; an unknown action predicts zero with one model per action; the members of an action regressor are not its models, so indexing or logging raises or records nothing; iterating over a regressor without n_models never ends; tables drop the axis of a batch of one, use only the first entry of a state, cannot predict with one axis, and fit raises for an integer."
  },
  {
   "property": "C122",
   "status": "partial",
   "theorems": [
    "Verif.DQN.Noisy.C122_quiet",
    "Verif.DQN.Noisy.C122_affine",
    "Verif.DQN.Noisy.C122_batch",
    "Verif.DQN.Noisy.C122_init",
    "Verif.DQN.Noisy.C122_noise",
    "Verif.DQN.Noisy.C122_params",
    "Verif.DQN.Noisy.C122_mean_refuted",
    "Verif.DQN.Noisy.C122_bias_refuted",
    "Verif.DQN.Noisy.C122_one_sided_refuted",
    "Verif.DQN.Noisy.C122_repeat_refuted",
    "Verif.DQN.Noisy.C122_print_refuted"
   ],
   "note": "Refuted: the noise is drawn from the unit interval, so the expected weights are raised by 4/9 and the bias by 2/3 of the noise weights, and no draw ever lowers a value of nonnegative features; predictions of the online and target networks change at every call; layers without bias cannot be printed."
  },
  {
   "property": "C123",
   "status": "partial",
   "theorems": [
    "Verif.Backend.C123_names",
    "Verif.Backend.C123_convert",
    "Verif.Backend.C123_agent",
    "Verif.Backend.C123_convert_list_refuted",
    "Verif.Backend.C123_parse_list",
    "Verif.Backend.C123_device",
    "Verif.Backend.C123_where",
    "Verif.Backend.C123_where_refuted",
    "Verif.Backend.C123_squeeze",
    "Verif.Backend.C123_squeeze_refuted",
    "Verif.Backend.C123_clip",
    "Verif.Backend.C123_median",
    "Verif.Backend.C123_median_refuted",
    "Verif.Backend.C123_from_list_partial",
    "Verif.Backend.C123_from_list_refuted",
    "Verif.Backend.C123_init_states_refuted",
    "Verif.Backend.C123_metrics_partial",
    "Verif.Backend.C123_metrics_refuted",
    "Verif.Backend.C123_window_partial",
    "Verif.Backend.C123_window_refuted",
    "Verif.Backend.C123_flatten",
    "Verif.Backend.C123_pack"
   ],
   "note": "Refuted: asked for a list, convert and parse return the class NotImplementedError instead of raising it; where with two arrays returns None; squeezing an axis larger than one raises with numpy only; the median of an even number of entries differs; a list with a single array cannot become a tensor if it has several entries, so the initial states of a single episode raise; metrics of a list dataset with a complete episode raise; windows over arrays have no mean with torch."
  },
  {
   "property": "C124",
   "status": "partial",
   "theorems": [
    "Verif.DQN.Nets.C124_distribution",
    "Verif.DQN.Nets.C124_distribution_order",
    "Verif.DQN.Nets.C124_dueling",
    "Verif.DQN.Nets.C124_range",
    "Verif.DQN.Nets.C124_forward",
    "Verif.DQN.Nets.C124_values",
    "Verif.DQN.Nets.C124_action",
    "Verif.DQN.Nets.C124_action_one",
    "Verif.DQN.Nets.C124_categorical_loss",
    "Verif.DQN.Nets.C124_weighted",
    "Verif.DQN.Nets.C124_reduction",
    "Verif.DQN.Nets.C124_sum_refuted",
    "Verif.DQN.Nets.C124_quantile_loss",
    "Verif.DQN.Nets.C124_quantile_one_refuted",
    "Verif.DQN.Nets.C124_categorical_target",
    "Verif.DQN.Nets.C124_rainbow_target",
    "Verif.DQN.Nets.C124_clip_return_refuted",
    "Verif.DQN.Nets.C124_short_datasets_refuted"
   ],
   "note": "Refuted: the reduction 'sum' of the categorical loss is the mean; with one quantile every prediction is compared with every target of the batch, and with a batch of one the loss raises; clipping rewards in Rainbow clips the n-step return; datasets with fewer steps than the return leave Rainbow's memory empty forever."
  },
  {
   "property": "C125",
   "status": "partial",
   "theorems": [
    "Verif.Envs.Reset.C125_cart",
    "Verif.Envs.Reset.C125_pendulum",
    "Verif.Envs.Reset.C125_segway",
    "Verif.Envs.Reset.C125_car_puddle",
    "Verif.Envs.Reset.C125_ship",
    "Verif.Envs.Reset.C125_given_partial",
    "Verif.Envs.Reset.C125_given_pendulum_partial",
    "Verif.Envs.Reset.C125_given_refuted",
    "Verif.Envs.Reset.C125_given_int_refuted",
    "Verif.Envs.Reset.C125_kept_partial",
    "Verif.Envs.Reset.C125_kept_refuted",
    "Verif.Envs.Reset.C125_lqr_random",
    "Verif.Envs.Reset.C125_lqr_dimensions",
    "Verif.Envs.Reset.C125_lqr_generate",
    "Verif.Envs.Reset.C125_lqr_generate_refuted",
    "Verif.Envs.Reset.C125_lqr_dimensions_refuted",
    "Verif.Envs.Reset.C125_finite",
    "Verif.Envs.Reset.C125_finite_refuted"
   ],
   "note": "Refuted: the array of the caller is overwritten with the normalised angle; with an array of integers the normalised angle is truncated; car, puddle world, LQR and FiniteMDP accept states outside their spaces; LQR.generate raises for a principal state beyond the number of actions and ignores a single dimension; FiniteMDP may start in a state without transitions, where every action raises."
  },
  {
   "property": "C126",
   "status": "partial",
   "theorems": [
    "Verif.Record.C126_videos_partial",
    "Verif.Record.C126_interrupted_refuted",
    "Verif.Record.C126_frames_refuted",
    "Verif.Record.C126_flags",
    "Verif.Record.C126_fps",
    "Verif.Record.C126_fps_refuted",
    "Verif.Record.C126_vector_step_partial",
    "Verif.Record.C126_vector_step_refuted",
    "Verif.Record.C126_vector_picture_refuted",
    "Verif.Record.C126_vector_mask_refuted",
    "Verif.Record.C126_vector_run_partial",
    "Verif.Record.C126_vector_idle_refuted",
    "Verif.Record.C126_vector_files_refuted"
   ],
   "note": "Refuted: after an interrupted call the next video starts with the frames of that call; a call without steps raises; frames of another size are lost; steps longer than a second give no frames per second and dt = 0 prevents the construction. With several environments the recorders share their files; a step raises as soon as the active environments are not the first ones, which happens when an earlier environment finishes first; an environment that is never started makes the run raise at its end."
  },
  {
   "property": "C127",
   "status": "partial",
   "theorems": [
    "Verif.Vector.Isaac.C127_convert",
    "Verif.Vector.Isaac.C127_reset_partial",
    "Verif.Vector.Isaac.C127_reset_refuted",
    "Verif.Vector.Isaac.C127_reset_one_refuted",
    "Verif.Vector.Isaac.C127_given_refuted",
    "Verif.Vector.Isaac.C127_step_partial",
    "Verif.Vector.Isaac.C127_step_refuted"
   ],
   "note": "Refuted: if exactly one environment is to be reset nothing is reset; given starting states are ignored; all the environments are moved."
  },
  {
   "property": "C128",
   "status": "partial",
   "theorems": [
    "Verif.Render.C128_transform",
    "Verif.Render.C128_transform_refuted",
    "Verif.Render.C128_rotate",
    "Verif.Render.C128_frames_partial",
    "Verif.Render.C128_frames_refuted",
    "Verif.Render.C128_grid_partial",
    "Verif.Render.C128_grid_start",
    "Verif.Render.C128_grid_start_refuted",
    "Verif.Render.C128_grid_lines_partial",
    "Verif.Render.C128_grid_lines_refuted",
    "Verif.Render.C128_grid_faithful",
    "Verif.Render.C128_torque",
    "Verif.Render.C128_torque_refuted",
    "Verif.Render.C128_pendulum",
    "Verif.Render.C128_force_partial",
    "Verif.Render.C128_force_refuted",
    "Verif.Render.C128_cart",
    "Verif.Render.C128_cart_refuted",
    "Verif.Render.C128_segway",
    "Verif.Render.C128_segway_refuted",
    "Verif.Render.C128_ship",
    "Verif.Render.C128_car",
    "Verif.Render.C128_puddle_partial",
    "Verif.Render.C128_puddle_refuted"
   ],
   "note": "Refuted: the start of a grid world is drawn in a wrong cell unless it is the upper left one (by default the one of van Hasselt is drawn over the goal); corridors get no lines; the first picture of a window has a black background; torque_arrow changes the array of its caller; the head of a force arrow below a pixel points to the right; the arrow of the cart-pole points against the force; rendering the segway moves its wheel; a puddle world without puddles divides by zero; points left of the window are drawn in its first column."
  },
  {
   "property": "C129",
   "status": "partial",
   "theorems": [
    "Verif.Features.C129_count_partial",
    "Verif.Features.C129_count_refuted",
    "Verif.Features.C129_prototypes"
   ],
   "note": "Refuted for Gaussian prototypes: np.size(low) of None is one, so the automatic number of tilings ignores the dimension of the space. That Gaussian draws have the right distribution is not modelled."
  },
  {
   "property": "C13",
   "status": "proved",
   "theorems": [
    "Verif.Memory.C13_fifo",
    "Verif.Memory.C13_get",
    "Verif.Memory.C13_zero_steps_raises"
   ],
   "note": ""
  },
  {
   "property": "C130",
   "status": "partial",
   "theorems": [
    "Verif.Misc.Console.C130_console_partial",
    "Verif.Misc.Console.C130_twice_refuted",
    "Verif.Misc.Console.C130_replace_refuted",
    "Verif.Misc.Console.C130_level_refuted",
    "Verif.Misc.Console.C130_notset_refuted",
    "Verif.Misc.Console.C130_igibson_refuted",
    "Verif.Misc.Console.C130_ids_partial",
    "Verif.Misc.Console.C130_stamps",
    "Verif.Misc.Console.C130_ids_refuted",
    "Verif.Misc.Console.C130_files_partial",
    "Verif.Misc.Console.C130_files_refuted"
   ],
   "note": "Refuted: loggers with the same id share their handlers, so messages are written twice, the levels of the newer one hold for both, and replacing a logger by a new one with the same name silences the new one; the experiment a-1 and the experiment a with the seed 1 have the same id, as have all unnamed loggers of the same second; the level NOTSET drops messages below WARNING; constructing an iGibson environment with default arguments silences all loggers of the process; the agent of epoch n of an unseeded run is saved to the file of the agent of the run with the seed n."
  },
  {
   "property": "C131",
   "status": "partial",
   "theorems": [
    "Verif.Wrap.Stack.C131_wrappers_partial",
    "Verif.Wrap.Stack.C131_wrappers_refuted",
    "Verif.Wrap.Stack.C131_short_args_refuted",
    "Verif.Wrap.Stack.C131_render_partial",
    "Verif.Wrap.Stack.C131_render_refuted",
    "Verif.Wrap.Stack.C131_gym_render_partial",
    "Verif.Wrap.Stack.C131_gym_render_refuted",
    "Verif.Wrap.Stack.C131_rearrange_partial",
    "Verif.Wrap.Stack.C131_rearrange_refuted",
    "Verif.Wrap.Stack.C131_path_return"
   ],
   "note": "Refuted: wrappers that are not tuples get the arguments of the environment too, so the constructor fails if they do not know them; with fewer dictionaries than wrappers the last wrappers are left out silently; after a reset iGibson and Habitat show the last picture of the previous episode, and fail before the first step; environments of pybullet show and record only their first frame; without a gripper the arm of Habitat gets no action."
  },
  {
   "property": "C132",
   "status": "partial",
   "theorems": [
    "Verif.System.C132_agent",
    "Verif.System.C132_replay",
    "Verif.System.C132_batches",
    "Verif.System.C132_starved_refuted",
    "Verif.System.C132_gae",
    "Verif.System.C132_evaluate_returns",
    "Verif.System.C132_episodic"
   ],
   "note": "Everything but (d) is proved. (d) is refuted by C132_starved_refuted for every environment and every number of steps."
  },
  {
   "property": "C133",
   "status": "partial",
   "theorems": [
    "Verif.Dataset.Object.C133_history",
    "Verif.Dataset.Object.C133_view",
    "Verif.Dataset.Object.C133_take",
    "Verif.Dataset.Object.C133_add",
    "Verif.Dataset.Object.C133_from_array_partial",
    "Verif.Dataset.Object.C133_list_view_partial",
    "Verif.Dataset.Object.C133_list_policy_refuted",
    "Verif.Dataset.Object.C133_view_thetas_refuted",
    "Verif.Dataset.Object.C133_index_refuted",
    "Verif.Dataset.Object.C133_from_array_refuted",
    "Verif.Vector.C133_flatten_refuted",
    "Verif.Vector.C133_one_environment_refuted"
   ],
   "note": "False as stated: from_array drops the policy states it is given (although the description of the dataset keeps their shape), so datasets flattened for a stateful agent have none (flatten_refuted); views have no list of parameters, so dataset[:k] + dataset[k:] raises (view_thetas_refuted); policy states of the list storage cannot be read and its views cannot be copied; numpy integers are refused as row numbers and select_random_samples(0) is not a dataset (index_refuted); VectorCore raises at the first step with a single environment because the dataset has no masks (one_environment_refuted). Proved: histories of calls for all back-ends, views, selections and concatenation with array storage."
  },
  {
   "property": "C134",
   "status": "partial",
   "theorems": [
    "Verif.Serialization.Links.C134_learns_partial",
    "Verif.Serialization.Links.C134_copdac_refuted",
    "Verif.Serialization.Links.C134_eppo_refuted",
    "Verif.Serialization.Links.C134_mellowmax_refuted",
    "Verif.Serialization.Links.C134_optimizer_state",
    "Verif.Serialization.Links.C134_optimizer_steps"
   ],
   "note": "Proved for all agents but three. Refuted for COPDAC_Q (after loading the agent and its policy have separate copies of the mean: the policy never changes again), for ePPO (the optimizer holds copies without gradients: the distribution never changes again) and for any agent with a Mellowmax policy (the temperature is computed with the function as it was when it was saved)."
  },
  {
   "property": "C135",
   "status": "partial",
   "theorems": [
    "Verif.ActorCritic.Shapes.C135_advantages_partial",
    "Verif.ActorCritic.Shapes.C135_one_transition_refuted",
    "Verif.ActorCritic.Shapes.C135_ppo_partial",
    "Verif.ActorCritic.Shapes.C135_trpo_partial",
    "Verif.ActorCritic.Shapes.C135_ppo_pairs",
    "Verif.ActorCritic.Shapes.C135_ppo_vector_refuted",
    "Verif.ActorCritic.Shapes.C135_ppo_column_differs",
    "Verif.ActorCritic.Shapes.C135_a2c_partial",
    "Verif.ActorCritic.Shapes.C135_critic_partial",
    "Verif.ActorCritic.Shapes.C135_a2c_critic_refuted",
    "Verif.ActorCritic.Shapes.C135_log_prob_partial",
    "Verif.ActorCritic.Shapes.C135_recurrent_refuted",
    "Verif.ActorCritic.Shapes.C135_sac_partial",
    "Verif.ActorCritic.Shapes.C135_sac_column_refuted",
    "Verif.ActorCritic.Shapes.C135_ddpg_refuted",
    "Verif.ActorCritic.Shapes.C135_ddpg_partial"
   ],
   "note": "PPO, TRPO and A2C need a critic that returns a column and SAC one that returns a vector; with the other shape the transitions are mixed without an error, and PPO then has a loss that does not depend on the policy. Monte-Carlo advantages raise for one transition, the recurrent policy raises for actions with one component, and DDPG and TD3 raise in every fit because PyTorch does not subtract booleans."
  },
  {
   "property": "C136",
   "status": "proved",
   "theorems": [
    "Verif.Finite.C136_grid",
    "Verif.Finite.C136_chain",
    "Verif.Finite.C136_taxi"
   ],
   "note": "End-to-end over the generators, the constructor, reset and step. That the taxi generator raises for a map without passengers and that a slip into a goal is not paid are C47_taxi_empty_refuted and C47_taxi_slip_refuted."
  },
  {
   "property": "C137",
   "status": "partial",
   "theorems": [
    "Verif.Approx.Heap.C137_independent",
    "Verif.Approx.Heap.C137_target",
    "Verif.Approx.Heap.C137_gradient",
    "Verif.Approx.Heap.C137_shared_refuted"
   ],
   "note": "set_weights does not copy an array of the type of the parameters: networks given the same array of the user train each other (C137_shared_refuted)."
  },
  {
   "property": "C138",
   "status": "proved",
   "theorems": [
    "Verif.ActorCritic.Soft.C138_update",
    "Verif.ActorCritic.Soft.C138_targets",
    "Verif.ActorCritic.Soft.C138_warmup",
    "Verif.ActorCritic.Soft.C138_before",
    "Verif.ActorCritic.Soft.C138_buffers",
    "Verif.ActorCritic.Soft.C138_never",
    "Verif.ActorCritic.Soft.C138_history",
    "Verif.ActorCritic.Soft.C138_temperature"
   ],
   "note": "Networks, losses of the critic, automatic differentiation and optimisers are arbitrary functions; floats are reals."
  },
  {
   "property": "C139",
   "status": "partial",
   "theorems": [
    "Verif.Misc.Config.C139_models",
    "Verif.Misc.Config.C139_same_kind",
    "Verif.Misc.Config.C139_independent_partial",
    "Verif.Misc.Config.C139_distinct_partial",
    "Verif.Misc.Config.C139_dictionary",
    "Verif.Misc.Config.C139_refuted",
    "Verif.Misc.Config.C139_maxmin",
    "Verif.Misc.Config.C139_fit_partial",
    "Verif.Misc.Config.C139_fit_refuted",
    "Verif.Misc.Config.C139_policy"
   ],
   "note": "Holds for agents of one kind, for different dictionaries, and when no constructor has to write; refuted for shared dictionaries and different kinds. Values of keys other than n_models and idx are not looked at."
  },
  {
   "property": "C14",
   "status": "proved",
   "theorems": [
    "Verif.Memory.C14_nstep",
    "Verif.Memory.C14_windows",
    "Verif.Memory.C13_fifo"
   ],
   "note": ""
  },
  {
   "property": "C140",
   "status": "proved",
   "theorems": [
    "Verif.System.C140_grid",
    "Verif.System.C140_grid_bound",
    "Verif.System.C140_grid_optimal",
    "Verif.System.C140_evaluate",
    "Verif.System.C140_return",
    "Verif.TD.C140_learn"
   ],
   "note": "C140_learn (Verif.TD) is the general theorem: a whole call of learn in a deterministic environment. C140_grid_optimal: Bellman's equation in the live states is solved by the discounted returns of the shortest paths (its only solution, used in C140_return). C140_grid_bound gives an explicit condition on K, C140_grid the existence of K. C140_evaluate covers evaluate with a greedy policy, including its termination. Rewards and values are real numbers; the start is assumed to be a cell of the grid, which the constructor does not check (C45_start_refuted). The agent's policy has no preprocessors."
  },
  {
   "property": "C141",
   "status": "partial",
   "theorems": [
    "Verif.TD.C141_moments",
    "Verif.TD.C141_normalised",
    "Verif.TD.C141_mean",
    "Verif.TD.C141_sigma_partial",
    "Verif.TD.C141_sigma_refuted"
   ],
   "note": "The moments are proved for every run. The width is the square root of variance * w2 / (2 w1 + 1e-10), with a floor; the code multiplies the sum of the weights by 2 where the standard error needs its square, so the width is not the standard error (sigma_refuted)."
  },
  {
   "property": "C142",
   "status": "partial",
   "theorems": [
    "Verif.ActorCritic.Proximal.C142_fit",
    "Verif.ActorCritic.Proximal.C142_advantages",
    "Verif.ActorCritic.Proximal.C142_preprocessors",
    "Verif.ActorCritic.Proximal.C142_first_loss",
    "Verif.ActorCritic.Proximal.C142_buffers",
    "Verif.ActorCritic.Proximal.C142_run",
    "Verif.ActorCritic.Proximal.C142_single_refuted",
    "Verif.ActorCritic.Proximal.C142_schedule_refuted"
   ],
   "note": "Proved for constant numbers of epochs and batch sizes and at least two transitions. With one transition the advantages are NaN and the policy is lost (single_refuted); a number of epochs or a batch size given as LinearParameter or DecayParameter is a float and every call raises TypeError (schedule_refuted), although the documentation allows any Parameter."
  },
  {
   "property": "C143",
   "status": "partial",
   "theorems": [
    "Verif.Vector.Pipes.C143_isolation",
    "Verif.Vector.Pipes.C143_seed",
    "Verif.Vector.Pipes.C143_reproducible",
    "Verif.Vector.Pipes.C143_simulators",
    "Verif.Vector.Pipes.C143_copies_refuted",
    "Verif.Vector.Pipes.C143_seed_copies_refuted",
    "Verif.Vector.Pipes.C143_seed_nothing_refuted"
   ],
   "note": "Isolation and reproducibility (for environments whose seed method sets the generator) are proved. Independence is refuted: forked workers start with the same generator and seed sends the same seed to all of them, so that workers which get the same commands answer the same for ever. Environments that inherit seed from the base class are not seeded at all."
  },
  {
   "property": "C144",
   "status": "partial",
   "theorems": [
    "Verif.System.Pre.C144_once",
    "Verif.System.Pre.C144_calls",
    "Verif.System.Pre.C144_standardised",
    "Verif.System.Pre.C144_evaluate_refuted",
    "Verif.System.Pre.C144_vector_none",
    "Verif.System.Pre.C144_vector_refuted",
    "Verif.System.Pre.C144_vector_twice_refuted"
   ],
   "note": "Proved for Core at every point of every run, over several calls, and instantiated with StandardizationPreprocessor. Two parts are false of the code: evaluate updates the statistics (C144_evaluate_refuted), and VectorCore hands the preprocessors the pair returned by reset_all, so that every run with a preprocessor of the library raises before the first step (C144_vector_refuted), and one that accepts the pair is applied twice at every reset, also to the environments in the middle of an episode (C144_vector_twice_refuted). Without preprocessors the extended model of VectorCore is the one of the other properties (C144_vector_none)."
  },
  {
   "property": "C145",
   "status": "proved",
   "theorems": [
    "Verif.TD.C145_q_learning",
    "Verif.TD.C145_greedy",
    "Verif.TD.C145_expected_sarsa",
    "Verif.TD.C145_sarsa",
    "Verif.TD.C145_optimal_exists",
    "Verif.TD.C145_values_exist",
    "Verif.TD.C145_optimal_unique",
    "Verif.TD.C145_decay_rates",
    "Verif.TD.C145_learn",
    "Verif.TD.C145_learn_expected",
    "Verif.TD.C145_learn_sarsa",
    "Verif.TD.C145_sarsa_asks",
    "Verif.TD.C145_draws",
    "Verif.TD.C145_maxmin",
    "Verif.TD.C145_maxmin_rates"
   ],
   "note": "Almost-sure convergence, over an arbitrary probability space with a filtration: the state, the action and the rate are functions of the past, the next state has the probabilities of the problem given the past. C145_draws obtains this from independent random draws, C145_learn, C145_learn_expected and C145_learn_sarsa state the result for whole runs of learn. Not covered: discount 1, rewards that are random given the next state, constant learning rates, function approximation. Other claims: DoubleQLearning (C147), policies that change with the table (C151), WeightedQLearning (C159), SpeedyQLearning (C160)."
  },
  {
   "property": "C146",
   "status": "proved",
   "theorems": [
    "Verif.ActorCritic.Determ.C146_ddpg",
    "Verif.ActorCritic.Determ.C146_ddpg_targets",
    "Verif.ActorCritic.Determ.C146_td3_targets",
    "Verif.ActorCritic.Determ.C146_td3_actor",
    "Verif.ActorCritic.Determ.C146_before",
    "Verif.ActorCritic.Determ.C146_zero_delay",
    "Verif.ActorCritic.Determ.C146_buffers",
    "Verif.ActorCritic.Determ.C146_a2c",
    "Verif.ActorCritic.Determ.C146_a2c_buffers"
   ],
   "note": "Automatic differentiation and the optimisers are arbitrary operators; the critics make their minibatch steps in an arbitrary grouping of the batch."
  },
  {
   "property": "C147",
   "status": "proved",
   "theorems": [
    "Verif.TD.C147_double",
    "Verif.TD.C147_decay_rates",
    "Verif.TD.C147_decay",
    "Verif.TD.C147_draws",
    "Verif.TD.C147_learn"
   ],
   "note": "Real arithmetic. The coin, the next state and the choice among the best actions are random with their probabilities given the past; the state and the action are arbitrary functions of the past. C147_draws derives this from independent random numbers. C147_learn is about whole runs of learn."
  },
  {
   "property": "C148",
   "status": "partial",
   "theorems": [
    "Verif.ActorCritic.Trust.C148_fit",
    "Verif.ActorCritic.Trust.C148_safe",
    "Verif.ActorCritic.Trust.C148_start",
    "Verif.ActorCritic.Trust.C148_improves_partial",
    "Verif.ActorCritic.Trust.C148_length",
    "Verif.ActorCritic.Trust.C148_one_iteration",
    "Verif.ActorCritic.Trust.C148_direction",
    "Verif.ActorCritic.Trust.C148_single",
    "Verif.ActorCritic.Trust.C148_buffers",
    "Verif.ActorCritic.Trust.C148_run",
    "Verif.ActorCritic.Trust.C148_schedule_refuted",
    "Verif.ActorCritic.Trust.C148_entropy_refuted"
   ],
   "note": "fit describes one call completely: preprocessors, critic targets, gradient, direction, full step, the longest accepted halving or the old weights, and the number of times each schedule moves on. safe and run give the trust-region guarantee for one call and for any sequence of calls (single covers datasets of fewer than two transitions: policy unchanged, critic fitted). start and improves_partial: without preprocessors and with a constant entropy coefficient the objective never gets worse than that of the old weights, which is the entropy bonus alone. length, one_iteration and direction tie the step to the Hessian of the divergence and to the conjugate gradient of C59. Missing for all schedules: entropy_refuted, the line search compares objectives with different values of a scheduled entropy coefficient and accepts weights that are worse for every single value; schedule_refuted, scheduled numbers of iterations raise TypeError."
  },
  {
   "property": "C149",
   "status": "partial",
   "theorems": [
    "Verif.Logging.C149_ppo_partial",
    "Verif.Logging.C149_trpo_partial",
    "Verif.Logging.C149_trpo_divergence",
    "Verif.Logging.C149_ppo_run_partial",
    "Verif.Logging.C149_trpo_run_partial",
    "Verif.Logging.C149_dqn",
    "Verif.Logging.C149_ppo_refuted",
    "Verif.Logging.C149_trpo_refuted",
    "Verif.Logging.C149_run_refuted",
    "Verif.Logging.C149_divergence_refuted",
    "Verif.Logging.C149_directory_refuted"
   ],
   "note": "ppo_partial, trpo_partial and the two run theorems: true for critics that are ensembles (n_models given) or whose network has an argument idx. trpo_divergence: the divergence TRPO reports is the one it limits. dqn: true for a logger that has a directory, for whole runs. Missing because it is false: ppo_refuted, trpo_refuted and run_refuted, with an ordinary critic the keyword idx reaches the network and every call of fit raises TypeError after the weights have changed and before the iteration is counted, so no run gets past its first call; divergence_refuted, PPO reports KL(new, old) instead of KL(old, new); directory_refuted, a logger without a directory makes DQN raise TypeError after its network was fitted and before the update is counted."
  },
  {
   "property": "C15",
   "status": "partial",
   "theorems": [
    "Verif.Memory.C15_caller_dataset_partial",
    "Verif.Memory.C15_caller_dataset_refuted"
   ],
   "note": "True for n_steps_return=1; false for n_steps_return>=2, where the caller's rewards are overwritten in place (counterexample)."
  },
  {
   "property": "C150",
   "status": "partial",
   "theorems": [
    "Verif.ActorCritic.Bptt.C150_fit_partial",
    "Verif.ActorCritic.Bptt.C150_behaviour_partial",
    "Verif.ActorCritic.Bptt.C150_run",
    "Verif.ActorCritic.Bptt.C150_single_refuted",
    "Verif.ActorCritic.Bptt.C150_one_component_refuted",
    "Verif.ActorCritic.Bptt.C150_behaviour_refuted"
   ],
   "note": "fit_partial, behaviour_partial and run: proved for at least two transitions, actions with at least two components and steps that are in the first trajectory or not among the first truncation_length steps of the dataset. Missing because it is false: one_component_refuted, with actions of one component every call with an epoch raises ValueError after the critic was fitted; single_refuted, one transition makes the weights NaN; behaviour_refuted, the first steps of the dataset are not cut at the end of a trajectory (C76), so their probability before the fit is not that of the draw."
  },
  {
   "property": "C151",
   "status": "proved",
   "theorems": [
    "Verif.TD.C151_policy",
    "Verif.TD.C151_sarsa",
    "Verif.TD.C151_expected_sarsa",
    "Verif.TD.C151_eps_vanishes",
    "Verif.TD.C151_explores",
    "Verif.TD.C151_explores_all",
    "Verif.TD.C151_q_learning",
    "Verif.TD.C151_learn",
    "Verif.TD.C151_experience_exists",
    "Verif.TD.C151_runs_exist",
    "Verif.TD.C151_expected_sarsa_run",
    "Verif.TD.C151_sarsa_run",
    "Verif.TD.C151_expected_sarsa_runs_exist",
    "Verif.TD.C151_sarsa_runs_exist",
    "Verif.TD.C151_learn_exists"
   ],
   "note": "policy ties the distribution of the specification to the modelled EpsGreedy. sarsa and expected_sarsa: convergence for any policy that is greedy in the limit along any experience that recurs. explores, explores_all, q_learning, *_run: the decaying epsilon gives both, so nothing is assumed of the visits. The *_exist theorems show that such experience exists in every finite problem. learn and learn_exists: the same through Core.learn, with no preprocessor, no horizon and one start state. For SARSA no episode ends in a live state, because EpsGreedy counts also the draws made for the state after an absorbing transition."
  },
  {
   "property": "C152",
   "status": "proved",
   "theorems": [
    "Verif.Eval.C152_returns",
    "Verif.Eval.C152_returns_from",
    "Verif.Eval.C152_independent",
    "Verif.Eval.C152_unbiased",
    "Verif.Eval.C152_consistent",
    "Verif.Eval.C152_confidence",
    "Verif.Eval.C152_initial_states",
    "Verif.Eval.C152_steps_refuted"
   ],
   "note": "The environment, the policy and the agent's episode_start take their random numbers from one sequence of independent draws, in the order of the calls; a draw can be a whole array. No preprocessors and no learning: preprocessors with running statistics make the episodes depend on each other. steps_refuted: a game of at most two tosses of a coin, evaluated for one step, scores 1/2 on average although the performance is 3/4."
  },
  {
   "property": "C153",
   "status": "proved",
   "theorems": [
    "Verif.Eval.C153_returns",
    "Verif.Eval.C153_unbiased",
    "Verif.Eval.C153_independent",
    "Verif.Eval.C153_law",
    "Verif.Eval.C153_confidence"
   ],
   "note": "In each iteration every environment has its own four independent draws, for its reset, for the start of the episode in the agent, for the policy and for its step; the draws that an inactive environment does not need are discarded. One environment, and a stale number of episodes per fit smaller than N, are excluded: for these see C22 and C23."
  },
  {
   "property": "C154",
   "status": "proved",
   "theorems": [
    "Verif.DQN.C154_ends",
    "Verif.DQN.C154_values",
    "Verif.DQN.C154_deterministic"
   ],
   "note": "Datasets with absorbing transitions are excluded: for these LSPI bootstraps through the end of the episode, which C56 refutes. Floats are idealised to reals, so the rank test is exact."
  },
  {
   "property": "C155",
   "status": "partial",
   "theorems": [
    "Verif.View.C155_params",
    "Verif.View.C155_rejects",
    "Verif.View.C155_keys",
    "Verif.View.C155_keys_refuted",
    "Verif.View.C155_menu",
    "Verif.View.C155_hidden",
    "Verif.View.C155_scroll",
    "Verif.View.C155_groups_partial",
    "Verif.View.C155_groups_refuted",
    "Verif.View.C155_drag",
    "Verif.View.C155_camera_partial",
    "Verif.View.C155_camera_refuted",
    "Verif.View.C155_pause",
    "Verif.View.C155_record",
    "Verif.View.C155_pace",
    "Verif.View.C155_realtime",
    "Verif.View.C155_returns_partial",
    "Verif.View.C155_returns_refuted"
   ],
   "note": "Refuted: the keys 6 to 9 raise an IndexError since MuJoCo has six groups of geometries (keys_refuted); groups that MuJoCo hides by default cannot be asked for at the start (groups_refuted); TAB during a pause changes no frame until the pause ends (camera_refuted); a viewer without window that starts paused never returns (returns_refuted). The proved theorems say what holds outside of these cases."
  },
  {
   "property": "C156",
   "status": "partial",
   "theorems": [
    "Verif.View.C156_size_partial",
    "Verif.View.C156_size_refuted",
    "Verif.View.C156_new_model_refuted",
    "Verif.View.C156_upright",
    "Verif.View.C156_backend",
    "Verif.View.C156_bullet_partial",
    "Verif.View.C156_bullet_refuted",
    "Verif.View.C156_bullet_pixels_refuted",
    "Verif.View.C156_image_partial",
    "Verif.View.C156_image_refuted",
    "Verif.View.C156_colours",
    "Verif.View.C156_wait_partial",
    "Verif.View.C156_wait_refuted"
   ],
   "note": "Refuted: a size that exceeds the buffer in one direction only gives frames larger than asked for (size_refuted); after a change of model the frames need not fit into the new buffer and the offscreen buffer is not selected again (new_model_refuted, with a new context that uses the window's buffer, which is an assumption about MuJoCo; the size part needs no assumption); pictures of pybullet in windows that are not square have width and height exchanged and the pixels out of place (bullet_refuted, bullet_pixels_refuted); a smaller image leaves the rest of the earlier one (image_refuted); steps below a millisecond make the cv2 viewer wait for a key (wait_refuted). A window whose framebuffer is larger than its size in screen coordinates is not modelled."
  },
  {
   "property": "C157",
   "status": "partial",
   "theorems": [
    "Verif.ValueFn.C157_unbiased",
    "Verif.ValueFn.C157_target",
    "Verif.ValueFn.C157_error",
    "Verif.ValueFn.C157_error_monte_carlo",
    "Verif.ValueFn.C157_montecarlo_partial",
    "Verif.ValueFn.C157_montecarlo_refuted"
   ],
   "note": "Refuted for compute_advantage_montecarlo when a trajectory is ended by the horizon inside the dataset: the return of the next trajectory is added (C34), so that the expected advantage is wrong although the critic is exact. compute_advantage is compute_gae with lambda = 0 (C33_lambda_zero)."
  },
  {
   "property": "C158",
   "status": "partial",
   "theorems": [
    "Verif.Memory.C158_proportional_partial",
    "Verif.Memory.C158_stratified_partial",
    "Verif.Memory.C158_weights_partial",
    "Verif.Memory.C158_batch_scale",
    "Verif.Memory.C158_proportional_refuted",
    "Verif.Memory.C158_empty_slot_refuted",
    "Verif.Memory.C158_weights_refuted"
   ],
   "note": "Proved when no two sibling nodes of the tree have the same positive sum, for the weights before they are divided by the largest one of the batch (the returned weights are these times a positive number that depends on the batch). Refuted in general: with priorities 1, 2, 2, 1 the last transition is drawn with probability 1/3 and the one before it, with twice its priority, with probability 1/6, because a tie is broken by a coin and the drawn value is not reduced; with three slots, two filled with equal priorities, one draw in four leads to the empty slot (IndexError); with the division by the largest weight of the batch, as get returns them, the weighted sum is biased for beta = 1."
  },
  {
   "property": "C159",
   "status": "partial",
   "theorems": [
    "Verif.TD.C159_sigma",
    "Verif.TD.C159_near_partial",
    "Verif.TD.C159_greedy_partial",
    "Verif.TD.C159_learn_partial",
    "Verif.TD.C159_exact_refuted"
   ],
   "note": "Proved: the standard deviations of all the pairs of live states end at exactly 1e-5, the table ends within 2 gamma |A| 1e-5 / (1 - gamma) of the optimal values, and the greedy actions become optimal if the optimal values of the other actions are further away than twice that. Refuted: because the variance is never below 1e-10, in a problem with one state and two actions the table converges to the optimal values with probability zero, whatever rates, exploration and precision are."
  },
  {
   "property": "C16",
   "status": "partial",
   "theorems": [
    "Verif.Memory.C16_sequence",
    "Verif.Memory.C16_consecutive_partial",
    "Verif.Memory.C16_consecutive_refuted",
    "Verif.Memory.C16_batch",
    "Verif.Memory.C16_stateless_refuted"
   ],
   "note": "`C16_batch` is about whole batches with their padding. Shape, length, episode boundaries and previous actions proved for every slot; consecutiveness proved unless the piece reaches back over the write position of a wrapped memory, where it is refuted. For agents without internal state `get` always fails."
  },
  {
   "property": "C160",
   "status": "partial",
   "theorems": [
    "Verif.TD.C160_q_learning",
    "Verif.TD.C160_converges_partial",
    "Verif.TD.C160_learn_partial",
    "Verif.TD.C160_converges_refuted"
   ],
   "note": "Proved: the agent is plain Q-learning, with the same limits, as long as no update bootstraps from the state of the update just before it. Refuted in general: the second table is the table before the last update, whatever pair that was, so the correction term (1 - alpha) * (target_cur - target_old), which is not scaled by the learning rate, passes the noise of the last update on to the pair that happens to be updated next. In a problem with a middle state from which a fair coin leads to the left (reward 1) or to the right (reward -1) and back (all optimal values are 0), with the rate DecayParameter(1, exp=1), the table converges to the optimal values with probability zero."
  },
  {
   "property": "C161",
   "status": "partial",
   "theorems": [
    "Verif.TD.C161_limit",
    "Verif.TD.C161_converges_partial",
    "Verif.TD.C161_policy_limit",
    "Verif.TD.C161_policy_partial",
    "Verif.TD.C161_learn_partial",
    "Verif.TD.C161_learn_policy_partial",
    "Verif.TD.C161_asks",
    "Verif.TD.C161_q_learning",
    "Verif.TD.C161_converges_refuted"
   ],
   "note": "Proved in every problem, with independent rates for the reward and for the next value: the table converges almost surely to the optimal values (or the values of the policy) of the problem in which episodes are not ended by chance (RandomMDP.unended: every pair keeps its mean reward, and goes on surely if it can go on). These are the right values if each pair ends the episode always or never; with delta=1 the agent is then plain Q-learning. Refuted in general: an absorbing transition leaves the estimate of the next value as it is instead of moving it to zero, so the probability of ending is ignored. In a problem with a safe action (reward 0.9) and a risky one (reward 1, ends the episode with probability 1/2), gamma 1/2, the table converges to 1.9 and 2 (the optimal values are 1.8 and 1.45) for every exploration, so from some update on the greedy action is the wrong one with probability one."
  },
  {
   "property": "C162",
   "status": "partial",
   "theorems": [
    "Verif.TD.C162_rho",
    "Verif.TD.C162_rate_one",
    "Verif.TD.C162_optimal",
    "Verif.TD.C162_settles_partial",
    "Verif.TD.C162_average_partial",
    "Verif.TD.C162_episodes_refuted",
    "Verif.TD.C162_policy_refuted"
   ],
   "note": "Proved: the estimate changes only when the updated action is greedy after the update, by beta (1 - alpha) times the temporal difference, so never with learning rate 1. In a problem without ends, with Robbins-Monro rates for the values and any beta known from the past, the agent can settle only where the optimality equation of the average reward holds (with probability one, if table and estimate converge, their limits solve it), and a solution is the largest long-run average from every live state and is earned by every greedy policy. Not proved: that the agent converges. Refuted in problems with ends: the next value of an absorbing transition is 0 and not the value of the start of the next episode, so if every step is an episode with reward 1 the estimate stays at most 1 - alpha_0 for all rates, and with learning rate 1 the greedy action is for ever the one with reward 3/2 in two steps instead of the one with reward 1 in one step."
  },
  {
   "property": "C163",
   "status": "partial",
   "theorems": [
    "Verif.Wrap.MjData.C163_write_partial",
    "Verif.Wrap.MjData.C163_write_shape",
    "Verif.Wrap.MjData.C163_write_refuted",
    "Verif.Wrap.MjData.C163_only_joints",
    "Verif.Wrap.MjData.C163_lag",
    "Verif.Wrap.MjData.C163_reset_partial",
    "Verif.Wrap.MjData.C163_restore",
    "Verif.Wrap.MjData.C163_reset_bodies_refuted",
    "Verif.Wrap.MjData.C163_reset_velocity_refuted",
    "Verif.Wrap.MjData.C163_reset_twice_refuted",
    "Verif.Wrap.MjData.C163_consistent_refuted"
   ],
   "note": "Proved: what is written is read back and nothing else changes, but for velocities of bodies; only joints have an effect on the simulation; without velocities of bodies and without repetitions reset(obs) returns obs and changes nothing that is not in the specification or was removed from it; with all the joints it restores the simulation. Refuted: velocities of bodies are written to a temporary array and lost without an error; reset(obs) returns the asked-for positions of bodies and sites but the simulation is where it is after reset(); of two entries for one joint the last wins; no forward computation follows a reset or a step, so positions of bodies and sites in an observation lag behind the joints by one substep, and after a reset they are what mj_resetData left. Assumed of MuJoCo: a substep of mj_step is the forward computation followed by the integration (Euler), and mj_resetData does no forward computation."
  },
  {
   "property": "C164",
   "status": "partial",
   "theorems": [
    "Verif.Misc.PlotItems.C164_screen",
    "Verif.Misc.PlotItems.C164_new",
    "Verif.Misc.PlotItems.C164_dataset",
    "Verif.Misc.PlotItems.C164_dotted_refuted",
    "Verif.Misc.PlotItems.C164_lists_refuted",
    "Verif.Misc.PlotItems.C164_draw_refuted",
    "Verif.Misc.PlotItems.C164_enough",
    "Verif.Misc.PlotItems.C164_colors",
    "Verif.Misc.PlotItems.C164_colors_limit",
    "Verif.Misc.PlotItems.C164_curves",
    "Verif.Misc.PlotItems.C164_distinct_partial",
    "Verif.Misc.PlotItems.C164_distinct_refuted"
   ],
   "note": "Proved: for every sequence of clicks the layout and the contents of the plots agree with the ticks (C164_screen), when a plot can be made (C164_new), that there are enough colours for up to 206^3 curves and what the curves look like. Refuted: dotted limits are drawn at 1 and -1, not at the given heights; the lists of the caller are changed (infinite limits become None); drawing a curve twice without the window leaves a limit line behind; the colours are chosen anew for every curve, so two curves of one plot can get the same colour."
  },
  {
   "property": "C165",
   "status": "partial",
   "theorems": [
    "Verif.DQN.Losses.C165_quantiles_partial",
    "Verif.DQN.Losses.C165_quantiles_refuted",
    "Verif.DQN.Losses.C165_categorical_partial",
    "Verif.DQN.Losses.C165_categorical_refuted"
   ],
   "note": "Proved: the predictions are quantiles up to 1 (the width of the quadratic part of the Huber loss), and exactly if no target is closer than 1 and different; among predictions with probabilities of at least 1e-5 the mean of the target distributions is the only minimiser, if its probabilities are at least 1e-5. Refuted in general: with the targets 0 and 1/2 the prediction for the level 1/4 is 1/8 (an expectile), and the clamp at 1e-5 makes a smaller probability than that of the target better. Predictions are taken to be free for each state and action (a network with enough capacity)."
  },
  {
   "property": "C166",
   "status": "partial",
   "theorems": [
    "Verif.TD.C166_greedy_partial",
    "Verif.TD.C166_exploration_refuted"
   ],
   "note": "Proved for episodes in which all the actions after the first are greedy when they are executed: the agent does exactly what Watkins' Q(lambda) does. Refuted in general: the traces are never cut, so that one exploratory action with a bad reward destroys the optimal value of the pair before it (1 becomes 0), which Watkins' algorithm keeps."
  },
  {
   "property": "C167",
   "status": "proved",
   "theorems": [
    "Verif.TD.C167_features",
    "Verif.TD.C167_sarsa",
    "Verif.TD.C167_qlearning",
    "Verif.TD.C167_true_online",
    "Verif.TD.C167_expected"
   ],
   "note": "For the first pair the policy and the learning rate must not share random numbers or parameters, because the two classes read the rate and draw the next action in different orders; lambda is a constant. n_steps_per_fit must be 1, otherwise TD.fit raises AssertionError (in the model the agent then stays as it is)."
  },
  {
   "property": "C168",
   "status": "proved",
   "theorems": [
    "Verif.Core.C168_observers"
   ],
   "note": "Callbacks are functions of their own memory, the world and the sample or dataset. Exceptions inside callbacks are not modelled."
  },
  {
   "property": "C169",
   "status": "proved",
   "theorems": [
    "Verif.DQN.C169_double",
    "Verif.DQN.C169_double_two",
    "Verif.DQN.C169_averaged",
    "Verif.DQN.C169_averaged_next",
    "Verif.DQN.C169_myopic",
    "Verif.DQN.C169_clip"
   ],
   "note": "Networks are functions of their weights over the reals. The classes are compared through AbstractDQN.fit; a sequence of fits stands for any run of Core.learn, which hands the datasets to the agent."
  },
  {
   "property": "C17",
   "status": "proved",
   "theorems": [
    "Verif.Memory.C17_sum_tree",
    "Verif.Memory.C17_priorities_positive",
    "Verif.Memory.C17_bad_priority_raises",
    "Verif.Memory.C17_bad_index_raises",
    "Verif.Memory.C17_dataset_index_refuted",
    "Verif.Memory.C17_single_leaf_refuted"
   ],
   "note": "max_size >= 2; with max_size = 1 the first add recurses for ever (counterexample). update needs indexes of the tree, not of the dataset as documented (C17_dataset_index_refuted)."
  },
  {
   "property": "C170",
   "status": "partial",
   "theorems": [
    "Verif.Core.C170_learn",
    "Verif.Core.C170_learn_episodes",
    "Verif.Core.C170_learn_steps_partial",
    "Verif.Core.C170_evaluate_episodes",
    "Verif.Core.C170_evaluate_initial_states",
    "Verif.Core.C170_evaluate_steps_partial",
    "Verif.Core.C170_learn_steps_refuted",
    "Verif.Core.C170_learn_episodes_refuted"
   ],
   "note": "True of evaluations by episodes and from initial states, and of learning by episodes if n_episodes_per_fit divides a; true of steps (with a multiple of n_steps_per_fit) only if the first call happens to end with an episode. Refuted in general: the second call resets the environment in the middle of an episode, and transitions that were not yet fitted at the end of the first call are dropped. agent.stop() and env.stop() between the calls are taken to do nothing to the behaviour of either."
  },
  {
   "property": "C171",
   "status": "proved",
   "theorems": [
    "Verif.ActorCritic.MaxEnt.C171_critic",
    "Verif.ActorCritic.MaxEnt.C171_contraction",
    "Verif.ActorCritic.MaxEnt.C171_actor",
    "Verif.ActorCritic.MaxEnt.C171_improvement",
    "Verif.ActorCritic.MaxEnt.C171_optimal",
    "Verif.ActorCritic.MaxEnt.C171_exists",
    "Verif.ActorCritic.MaxEnt.C171_rounds",
    "Verif.ActorCritic.MaxEnt.C171_policy"
   ],
   "note": "Targets and losses are those of the modelled SAC (targets, actorLoss) for one transition; expectations are over the next state and the noise of the policy. policy shows that the squashed normal policy of the code meets the assumptions, for a stabilising constant of zero instead of 1e-6, and that its entropy is the one of actions scaled to limits of -1 and 1 (see C91). Not covered: that gradient descent reaches the minima, that networks and squashed normal densities can represent them, a temperature that changes."
  },
  {
   "property": "C172",
   "status": "proved",
   "theorems": [
    "Verif.ActorCritic.Plain.C172_values",
    "Verif.ActorCritic.Plain.C172_ddpg_critic",
    "Verif.ActorCritic.Plain.C172_ddpg_error",
    "Verif.ActorCritic.Plain.C172_ddpg_optimal",
    "Verif.ActorCritic.Plain.C172_ddpg_improvement",
    "Verif.ActorCritic.Plain.C172_td3_critic",
    "Verif.ActorCritic.Plain.C172_td3_optimal",
    "Verif.ActorCritic.Plain.C172_td3_misled",
    "Verif.ActorCritic.Plain.C172_ddpg_moving",
    "Verif.ActorCritic.Plain.C172_td3_moving"
   ],
   "note": "Targets and losses are those of the modelled DDPG and TD3 (bellman, ddpgNextQ, td3NextQ, actorLoss) for one transition; expectations are over the next state and the state of the random generator. td3_misled is a concrete agent with normal noise. ddpg_moving and td3_moving are about the target networks of the modelled agents (moveTargets). Not covered: that gradient descent reaches small errors, and an actor that moves during evaluation."
  },
  {
   "property": "C173",
   "status": "proved",
   "theorems": [
    "Verif.DQN.Learned.C173_dqn",
    "Verif.DQN.Learned.C173_double",
    "Verif.DQN.Learned.C173_averaged",
    "Verif.DQN.Learned.C173_error",
    "Verif.DQN.Learned.C173_maxmin",
    "Verif.DQN.Learned.C173_dqn_run",
    "Verif.DQN.Learned.C173_averaged_run"
   ],
   "note": "Targets, fit and target updates are those of the modelled agents. That a network comes close to the expected targets is a hypothesis: gradient descent is not modelled. In the runs it is only required at the calls that update the target network."
  },
  {
   "property": "C174",
   "status": "partial",
   "theorems": [
    "Verif.Utils.Rot.C174_euler_to_quat",
    "Verif.Utils.Rot.C174_mat",
    "Verif.Utils.Rot.C174_angles",
    "Verif.Utils.Rot.C174_quat_to_euler",
    "Verif.Utils.Rot.C174_round_trip",
    "Verif.Utils.Rot.C174_columns",
    "Verif.Utils.Rot.C174_rows_refuted"
   ],
   "note": "scipy's Rotation is modelled from its documentation, with exact reals and no tolerance for gimbal locks. Refuted: euler_to_mat takes one vector per row of a two-dimensional array, the quaternion functions one per column; for three vectors at once they silently describe different rotations."
  },
  {
   "property": "C175",
   "status": "partial",
   "theorems": [
    "Verif.Vector.Callbacks.C175_observers",
    "Verif.Vector.Callbacks.C175_calls",
    "Verif.Vector.Callbacks.C175_collect_partial",
    "Verif.Vector.Callbacks.C175_collect_refuted",
    "Verif.Vector.Callbacks.C175_step_refuted"
   ],
   "note": "Refuted: CollectDataset flattens the whole vectorized dataset, so that the transitions a fit leaves behind are collected twice if n_steps_per_fit is not a multiple of the number of environments; the step callback is not handed the mask and also receives the samples, with rewards from uninitialised memory, of the environments that are not being stepped. Proved for n_episodes_per_fit and for multiples of the number of environments."
  },
  {
   "property": "C176",
   "status": "partial",
   "theorems": [
    "Verif.Stats.Band.C176_band_partial",
    "Verif.Stats.Band.C176_coverage",
    "Verif.Stats.Band.C176_units",
    "Verif.Stats.Band.C176_runs",
    "Verif.Stats.Band.C176_equal_refuted"
   ],
   "note": "Refuted: at an epoch at which all the runs agree (or with one run) the band is NaN. scipy is modelled from its documentation; of Student's law only continuity, strict monotonicity, symmetry and the inverse are used. That independent normal runs have this law is assumed, and shown for a pair of runs."
  },
  {
   "property": "C177",
   "status": "proved",
   "theorems": [
    "Verif.Search.Pgpe.C177_gauss",
    "Verif.Search.Pgpe.C177_diag",
    "Verif.Search.Pgpe.C177_chol"
   ],
   "note": "Returns are assumed bounded; real numbers stand for floats."
  },
  {
   "property": "C178",
   "status": "proved",
   "theorems": [
    "Verif.Search.Pgpe.C178_gauss",
    "Verif.Search.Pgpe.C178_diag",
    "Verif.Search.Pgpe.C178_chol",
    "Verif.Search.Pgpe.C178_return"
   ],
   "note": "Beta times the returns is bounded above only; real numbers stand for floats. With a full covariance np.linalg.cholesky is assumed to give a Cholesky factor of every positive definite matrix; cholesky_exists shows that such a function exists."
  },
  {
   "property": "C179",
   "status": "partial",
   "theorems": [
    "Verif.Search.C179_raises",
    "Verif.Search.C179_updates",
    "Verif.Search.C179_enough",
    "Verif.Search.C179_atomic_refuted",
    "Verif.Search.C179_atomic_partial"
   ],
   "note": "Refuted for the last sentence: mle writes the new mean before it computes the Cholesky factor, so after the LinAlgError the mean is the new one and the covariance the old one. The constrained update con_wmle leaves the distribution unchanged. Real numbers stand for floats; np.linalg.cholesky is assumed to give a Cholesky factor of every positive definite matrix and to raise otherwise."
  },
  {
   "property": "C18",
   "status": "partial",
   "theorems": [
    "Verif.Memory.C18_valid_slot",
    "Verif.Memory.C18_interval_partial",
    "Verif.Memory.C18_unwritten_slot_refuted",
    "Verif.Memory.C18_interval_refuted"
   ],
   "note": "Proved without ties between sibling sums; with ties the choice ignores s and can return an unwritten slot (counterexamples)."
  },
  {
   "property": "C180",
   "status": "proved",
   "theorems": [
    "Verif.Search.Pgpe.C180_multipliers",
    "Verif.Search.Pgpe.C180_exists",
    "Verif.Search.Pgpe.C180_minimum",
    "Verif.Search.Pgpe.C180_attained",
    "Verif.Search.Pgpe.C180_chol",
    "Verif.Search.Pgpe.C180_gauss",
    "Verif.Search.Pgpe.C180_diag"
   ],
   "note": "For finitely many episodes the bound on the divergence is refuted by C97_kl_refuted. The minimiser of scipy is an argument that must find points where the derivative of the dual function tends to zero. Real numbers stand for floats; np.linalg.cholesky is assumed to give a Cholesky factor of every positive definite matrix."
  },
  {
   "property": "C181",
   "status": "proved",
   "theorems": [
    "Verif.Search.Pgpe.C181_settles"
   ],
   "note": "For the Gaussian with a full covariance. The updates are idealised to their almost sure limits as the number of episodes grows (LimitUpdate); that the limits exist is C178. The distributions themselves need not converge. Real numbers stand for floats; np.linalg.cholesky is assumed to give a Cholesky factor of every positive definite matrix."
  },
  {
   "property": "C182",
   "status": "proved",
   "theorems": [
    "Verif.Core.C182_learn",
    "Verif.Core.C182_evaluate",
    "Verif.Core.C182_before",
    "Verif.Core.C182_interrupted"
   ],
   "note": "What the agent and the environment themselves look like after the exception is up to them (the world is arbitrary). Not included: videos (an interrupted recording is C126), progress bars and agent.stop/env.stop, which are not called after an exception. VectorCore keeps the fit period of earlier calls (C23)."
  },
  {
   "property": "C183",
   "status": "partial",
   "theorems": [
    "Verif.Misc.Crash.C183_killed_partial",
    "Verif.Misc.Crash.C183_between_partial",
    "Verif.Misc.Crash.C183_closed_partial",
    "Verif.Misc.Crash.C183_best_refuted",
    "Verif.Misc.Crash.C183_append_refuted",
    "Verif.Misc.Crash.C183_raised_refuted",
    "Verif.Misc.Crash.C183_loaded_refuted"
   ],
   "note": "Proved: at most the one file that was being written is broken; all files the interrupted call does not write are as they were and those it had closed are complete; between two files nothing is broken. False: every file is written in place, so that the earlier best agent, or the earlier values, are lost if the program is killed while the file is written, and append=True then raises. If saving an agent raises, its performance has already been stored: later agents that are better than all saved ones are not saved, and load returns None for the remains in the file. Caches of the operating system are not modelled."
  },
  {
   "property": "C19",
   "status": "proved",
   "theorems": [
    "Verif.Memory.C19_weights",
    "Verif.Memory.C19_update_priorities",
    "Verif.Memory.C19_update",
    "Verif.Memory.C19_get_full",
    "Verif.Memory.C19_segments",
    "Verif.Memory.C19_max_priority"
   ],
   "note": "Over the reals. On a memory that is not full a tie (C18) can return priority 0; the statement ranges over positive priorities."
  },
  {
   "property": "C20",
   "status": "partial",
   "theorems": [
    "Verif.Serialization.C20_load_save",
    "Verif.Serialization.C20_load_save_partial",
    "Verif.Serialization.C20_full_round_trip_partial",
    "Verif.Serialization.C20_unknown_method_raises",
    "Verif.Serialization.C20_replay_memory_refuted",
    "Verif.Serialization.C20_replay_memory_reset"
   ],
   "note": "Exact result proved for every object graph; equal to what is promised unless a 'mushroom!' attribute has a value: these are never restored, so a replay memory saved with full_save=True is unusable after loading (counterexample)."
  },
  {
   "property": "C21",
   "status": "proved",
   "theorems": [
    "Verif.Vector.C21_flatten",
    "Verif.Vector.C21_blocks_closed",
    "Verif.Vector.C21_runs"
   ],
   "note": "flatten proved for every history in which an environment becomes inactive only at the end of an episode; C21_runs proves that runs produce only such histories. The policy states of the transitions are not part of the flattened dataset: from_array drops them (C133)."
  },
  {
   "property": "C22",
   "status": "proved",
   "theorems": [
    "Verif.Vector.C22_episodes",
    "Verif.Vector.C22_steps"
   ],
   "note": "Horizon >= 1; at least two environments (with one, every run raises: C133_one_environment_refuted); no core preprocessors."
  },
  {
   "property": "C23",
   "status": "partial",
   "theorems": [
    "Verif.Vector.C23_evaluate_partial",
    "Verif.Vector.C23_refuted"
   ],
   "note": "False after learn(n_episodes_per_fit=k) with k < N (counterexample); otherwise evaluate does exactly what it does on a fresh core."
  },
  {
   "property": "C24",
   "status": "partial",
   "theorems": [
    "Verif.Vector.C24_exactly_once_partial",
    "Verif.Vector.C24_duplicate_refuted",
    "Verif.Vector.C24_lost_refuted",
    "Verif.Vector.C24_overflow_refuted"
   ],
   "note": "Proved for n_episodes_per_fit and for n_steps_per_fit a multiple of n_envs with n_steps; otherwise transitions are delivered twice or lost and the dataset can overflow (counterexamples)."
  },
  {
   "property": "C25",
   "status": "proved",
   "theorems": [
    "Verif.Policy.C25_linear",
    "Verif.Policy.C25_linear_call",
    "Verif.Policy.C25_linear_end",
    "Verif.Policy.C25_decay",
    "Verif.Policy.C25_decay_call",
    "Verif.Policy.C25_constant",
    "Verif.Policy.C25_in_range",
    "Verif.Policy.C25_cells_independent"
   ],
   "note": "Over the reals; full indices."
  },
  {
   "property": "C26",
   "status": "proved",
   "theorems": [
    "Verif.Policy.C26_mass",
    "Verif.Policy.C26_distribution",
    "Verif.Policy.C26_draw"
   ],
   "note": "Random choices are finite distributions."
  },
  {
   "property": "C27",
   "status": "partial",
   "theorems": [
    "Verif.Policy.C27_distribution",
    "Verif.Policy.C27_shift",
    "Verif.Policy.C27_monotone",
    "Verif.Policy.C27_draw",
    "Verif.Policy.C27_mellowmax",
    "Verif.Policy.C27_mellowmax_bounds",
    "Verif.Policy.C27_mellowmax_constant",
    "Verif.Policy.C27_mellowmax_omega_refuted"
   ],
   "note": "Over the reals. brentq is an argument, assumed to return a root. Proved for a constant parameter omega; refuted for one that changes: Mellowmax calls omega twice and uses the two values together."
  },
  {
   "property": "C28",
   "status": "proved",
   "theorems": [
    "Verif.TD.C28_qLearning",
    "Verif.TD.C28_sarsa",
    "Verif.TD.C28_expectedSarsa",
    "Verif.TD.C28_doubleQ",
    "Verif.TD.C28_maxminQ",
    "Verif.TD.C28_speedyQ",
    "Verif.TD.C28_weightedQ",
    "Verif.TD.C28_rLearning"
   ],
   "note": "Over the reals. RQ-learning is C73."
  },
  {
   "property": "C29",
   "status": "proved",
   "theorems": [
    "Verif.TD.C29_qLearning",
    "Verif.TD.C29_sarsa",
    "Verif.TD.C29_other_updates"
   ],
   "note": "For every run of the Q-learning and SARSA agents in Core; per update for the other algorithms."
  },
  {
   "property": "C30",
   "status": "proved",
   "theorems": [
    "Verif.TD.C30_ball",
    "Verif.TD.C30_ball_history",
    "Verif.TD.C30_sweep",
    "Verif.TD.C30_contraction",
    "Verif.TD.C30_convergence",
    "Verif.TD.C30_optimal_exists_unique"
   ],
   "note": ""
  },
  {
   "property": "C31",
   "status": "proved",
   "theorems": [
    "Verif.TD.C31_sarsa"
   ],
   "note": "learn with n_steps_per_fit = 1, which TD.fit requires."
  },
  {
   "property": "C32",
   "status": "proved",
   "theorems": [
    "Verif.TD.C32_sarsaLambda",
    "Verif.TD.C32_qLambda",
    "Verif.TD.C32_unvisited",
    "Verif.TD.C32_credit_range"
   ],
   "note": "Constant lambda."
  },
  {
   "property": "C33",
   "status": "proved",
   "theorems": [
    "Verif.ValueFn.C33_gae",
    "Verif.ValueFn.C33_every_step",
    "Verif.ValueFn.C33_independent",
    "Verif.ValueFn.C33_lambda_zero",
    "Verif.ValueFn.C33_needs_last"
   ],
   "note": "For datasets in which an absorbing step is flagged as last, as in all data collected by Core; C33_needs_last shows that this is needed."
  },
  {
   "property": "C34",
   "status": "partial",
   "theorems": [
    "Verif.ValueFn.C34_montecarlo_partial",
    "Verif.ValueFn.C34_montecarlo_actual",
    "Verif.ValueFn.C34_montecarlo_refuted"
   ],
   "note": "Violated when a trajectory is ended by the horizon inside of the dataset: the return of the next one is added."
  },
  {
   "property": "C35",
   "status": "proved",
   "theorems": [
    "Verif.Stats.C35_std_pos",
    "Verif.Stats.C35_mean",
    "Verif.Stats.C35_mean_range"
   ],
   "note": ""
  },
  {
   "property": "C36",
   "status": "partial",
   "theorems": [
    "Verif.Stats.C36_range_partial",
    "Verif.Stats.C36_caller_kept_partial",
    "Verif.Stats.C36_construct_partial",
    "Verif.Stats.C36_caller_overwritten",
    "Verif.Stats.C36_caller_refuted",
    "Verif.Stats.C36_construct_refuted"
   ],
   "note": "Violated: with all components bounded the caller's array is overwritten; with exactly one bounded component construction fails."
  },
  {
   "property": "C37",
   "status": "partial",
   "theorems": [
    "Verif.Stats.C37_sgd",
    "Verif.Stats.C37_adaptive",
    "Verif.Stats.C37_adaptive_plain",
    "Verif.Stats.C37_adaptive_optimal",
    "Verif.Stats.C37_gradient_kept_partial",
    "Verif.Stats.C37_gradient_refuted",
    "Verif.Stats.C37_descent_cancels"
   ],
   "note": "Direction and length are proved; with maximize=False the caller's gradient array is negated."
  },
  {
   "property": "C38",
   "status": "proved",
   "theorems": [
    "Verif.Utils.C38_positive",
    "Verif.Utils.C38_normalize",
    "Verif.Utils.C38_unique",
    "Verif.Utils.C38_idempotent",
    "Verif.Utils.C38_shortest"
   ],
   "note": ""
  },
  {
   "property": "C39",
   "status": "proved",
   "theorems": [
    "Verif.Utils.C39_number",
    "Verif.Utils.C39_partition",
    "Verif.Utils.C39_sizes",
    "Verif.Utils.C39_aligned"
   ],
   "note": ""
  },
  {
   "property": "C40",
   "status": "partial",
   "theorems": [
    "Verif.Approx.C40_linear",
    "Verif.Approx.C40_action",
    "Verif.Approx.C40_torch",
    "Verif.Approx.C40_torch_short",
    "Verif.Approx.C40_shared",
    "Verif.Approx.C40_shared_refuted"
   ],
   "note": "Round trips are proved. The weights are not copied: writing into the caller's array after set_weights changes the approximator (refuted). Too long vectors are accepted by the action regressor and torch and their tail is ignored; a failing torch set_weights may leave some parameters changed."
  },
  {
   "property": "C41",
   "status": "proved",
   "theorems": [
    "Verif.Solvers.C41_value_iteration"
   ],
   "note": "Optimal value specified by expected returns of all decision rules, not by the Bellman equation."
  },
  {
   "property": "C42",
   "status": "partial",
   "theorems": [
    "Verif.Solvers.C42_monotone",
    "Verif.Solvers.C42_policy_iteration_partial",
    "Verif.Solvers.C42_refuted"
   ],
   "note": "Terminates with non-decreasing values; the result is within the np.isclose tolerance of the optimum, and the refutation shows the returned policy need not be greedy."
  },
  {
   "property": "C43",
   "status": "proved",
   "theorems": [
    "Verif.Solvers.C43_lyapunov",
    "Verif.Solvers.C43_bellman",
    "Verif.Solvers.C43_action_value",
    "Verif.Solvers.C43_gain_is_greedy",
    "Verif.Solvers.C43_riccati",
    "Verif.Solvers.C43_converged",
    "Verif.Solvers.C43_gaussian"
   ],
   "note": "Linear systems and inverses are exact; the action bounds of the environment are not modelled."
  },
  {
   "property": "C44",
   "status": "partial",
   "theorems": [
    "Verif.Solvers.C44_shortest_path",
    "Verif.Solvers.C44_failure",
    "Verif.Solvers.C44_crash",
    "Verif.Solvers.C44_refuted"
   ],
   "note": "Shortest winning path proved; for failures the returned discount is off by one, and a search that reaches max_k is reported as a failure."
  },
  {
   "property": "C45",
   "status": "partial",
   "theorems": [
    "Verif.Finite.C45_bijection",
    "Verif.Finite.C45_step",
    "Verif.Finite.C45_step_van_hasselt",
    "Verif.Finite.C45_state_valid",
    "Verif.Finite.C45_start_refuted"
   ],
   "note": "Proved from every valid start; the constructor accepts a start outside the grid, from which the claim fails (counterexample)."
  },
  {
   "property": "C46",
   "status": "proved",
   "theorems": [
    "Verif.Finite.C46_choice",
    "Verif.Finite.C46_step",
    "Verif.Finite.C46_run"
   ],
   "note": ""
  },
  {
   "property": "C47",
   "status": "partial",
   "theorems": [
    "Verif.Finite.C47_chain",
    "Verif.Finite.C47_chain_reward",
    "Verif.Finite.C47_grid",
    "Verif.Finite.C47_taxi",
    "Verif.Finite.C47_taxi_slip_refuted",
    "Verif.Finite.C47_taxi_empty_refuted"
   ],
   "note": "Well-formedness and exact contents are proved for all maps and sizes. The taxi reward is not given when the action slips into the goal (counterexample to the documented reward). A map without passengers raises in the taxi generator."
  },
  {
   "property": "C48",
   "status": "partial",
   "theorems": [
    "Verif.Finite.C48_newline",
    "Verif.Finite.C48_no_newline_partial",
    "Verif.Finite.C48_no_newline_refuted"
   ],
   "note": "Proved for files ending with a newline. Without it, every map whose last row has a free cell raises an index error."
  },
  {
   "property": "C49",
   "status": "proved",
   "theorems": [
    "Verif.Features.C49_index",
    "Verif.Features.C49_outside",
    "Verif.Features.C49_components",
    "Verif.Features.C49_components_only",
    "Verif.Features.C49_size",
    "Verif.Features.C49_generate",
    "Verif.Features.C49_upper_bound",
    "Verif.Features.C49_indexes",
    "Verif.Features.C49_features",
    "Verif.Features.C49_voronoi"
   ],
   "note": ""
  },
  {
   "property": "C50",
   "status": "proved",
   "theorems": [
    "Verif.Features.C50_blocks",
    "Verif.Features.C50_linear",
    "Verif.Features.C50_batch"
   ],
   "note": ""
  },
  {
   "property": "C51",
   "status": "proved",
   "theorems": [
    "Verif.Features.C51_fourier",
    "Verif.Features.C51_exponents",
    "Verif.Features.C51_polynomial",
    "Verif.Features.C51_normalize",
    "Verif.Features.C51_grid",
    "Verif.Features.C51_centers",
    "Verif.Features.C51_widths",
    "Verif.Features.C51_fourier_value",
    "Verif.Features.C51_fourier_range",
    "Verif.Features.C51_fourier_independent"
   ],
   "note": ""
  },
  {
   "property": "C52",
   "status": "proved",
   "theorems": [
    "Verif.DQN.C52_target",
    "Verif.DQN.C52_maxmin",
    "Verif.DQN.C52_maxmin_one",
    "Verif.DQN.C52_counting",
    "Verif.DQN.C52_counted",
    "Verif.DQN.C52_averaged",
    "Verif.DQN.C52_zero"
   ],
   "note": "CategoricalDQN, QuantileDQN and Rainbow count only the calls of fit that update the network."
  },
  {
   "property": "C53",
   "status": "proved",
   "theorems": [
    "Verif.DQN.C53_projection",
    "Verif.DQN.C53_unclipped",
    "Verif.DQN.C53_absorbing",
    "Verif.DQN.C53_absorbing_atom",
    "Verif.DQN.C53_atoms",
    "Verif.DQN.C53_priority"
   ],
   "note": "Real arithmetic: rounding of (v_max - v_min) / delta above n_atoms - 1 is not modelled."
  },
  {
   "property": "C54",
   "status": "proved",
   "theorems": [
    "Verif.ActorCritic.C54_between",
    "Verif.ActorCritic.C54_geometric",
    "Verif.ActorCritic.C54_init",
    "Verif.ActorCritic.C54_history",
    "Verif.ActorCritic.C54_delay",
    "Verif.ActorCritic.C54_ddpg",
    "Verif.ActorCritic.C54_td3",
    "Verif.ActorCritic.C54_sac",
    "Verif.ActorCritic.C54_smoothing",
    "Verif.ActorCritic.C54_smoothing_inside"
   ],
   "note": "Scheduled coefficients included. Data types (boolean masks) are not modelled."
  },
  {
   "property": "C55",
   "status": "proved",
   "theorems": [
    "Verif.DQN.C55_boosted",
    "Verif.DQN.C55_exact",
    "Verif.DQN.C55_once"
   ],
   "note": "For the first call of fit; a second call fails (C55_once)."
  },
  {
   "property": "C56",
   "status": "partial",
   "theorems": [
    "Verif.DQN.C56_fqi",
    "Verif.DQN.C56_doublefqi",
    "Verif.DQN.C56_halves",
    "Verif.DQN.C56_lspi_partial",
    "Verif.DQN.C56_lspi_refuted"
   ],
   "note": "Holds for FQI and DoubleFQI. LSPI masks the values used to choose the next action but not the features of the next state, so it does bootstrap from absorbing states (counterexample)."
  },
  {
   "property": "C57",
   "status": "partial",
   "theorems": [
    "Verif.Search.C57_reinforce",
    "Verif.Search.C57_gpomdp_partial",
    "Verif.Search.C57_enac",
    "Verif.Search.C57_gpomdp_refuted",
    "Verif.Search.C57_failed_refuted"
   ],
   "note": "GPOMDP keeps the rewards of an unfinished episode for the next fit, and a fit that raises leaves its scores behind (counterexamples)."
  },
  {
   "property": "C58",
   "status": "partial",
   "theorems": [
    "Verif.Search.C58_gauss",
    "Verif.Search.C58_diag",
    "Verif.Search.C58_chol",
    "Verif.Search.C58_covariance",
    "Verif.Search.C58_mean",
    "Verif.Search.C58_diag_wmle_partial",
    "Verif.Search.C58_chol_wmle_partial",
    "Verif.Search.C58_scale",
    "Verif.Search.C58_unbiased",
    "Verif.Search.C58_unweighted_partial",
    "Verif.Search.C58_single_refuted",
    "Verif.Search.C58_unweighted_refuted",
    "Verif.Search.C58_density"
   ],
   "note": "One sample gives no estimate; without weights the diagonal distribution uses the biased estimate and the Cholesky distribution fails for one variable (counterexamples)."
  },
  {
   "property": "C59",
   "status": "partial",
   "theorems": [
    "Verif.ActorCritic.C59_textbook",
    "Verif.ActorCritic.C59_residual_partial",
    "Verif.ActorCritic.C59_tolerance_partial",
    "Verif.ActorCritic.C59_first_partial",
    "Verif.ActorCritic.C59_eigenvector_partial",
    "Verif.ActorCritic.C59_refuted",
    "Verif.ActorCritic.C59_argument_refuted"
   ],
   "note": "The right-hand side, the residual and the first direction share one tensor, so the second direction is wrong and the right-hand side is overwritten (counterexamples; the textbook iterates are proved to solve the system). Proved: the first iterate, the residual identity, the stopping rule and eigenvectors."
  },
  {
   "property": "C60",
   "status": "partial",
   "theorems": [
    "Verif.ActorCritic.C60_safe_partial",
    "Verif.ActorCritic.C60_longest",
    "Verif.ActorCritic.C60_step_length",
    "Verif.ActorCritic.C60_step_direction",
    "Verif.ActorCritic.C60_limit_refuted"
   ],
   "note": "The divergence is only bounded by one and a half times max_kl (counterexample for max_kl itself). NaN values of loss and divergence are covered."
  },
  {
   "property": "C61",
   "status": "proved",
   "theorems": [
    "Verif.ActorCritic.C61_pessimistic",
    "Verif.ActorCritic.C61_inside",
    "Verif.ActorCritic.C61_flat",
    "Verif.ActorCritic.C61_worsening",
    "Verif.ActorCritic.C61_batch",
    "Verif.ActorCritic.C61_gradient",
    "Verif.ActorCritic.C61_no_gradient"
   ],
   "note": ""
  },
  {
   "property": "C62",
   "status": "partial",
   "theorems": [
    "Verif.Misc.C62_window_partial",
    "Verif.Misc.C62_window_refuted",
    "Verif.Misc.C62_best_partial",
    "Verif.Misc.C62_best_refuted",
    "Verif.Misc.C62_logged_partial",
    "Verif.Misc.C62_logged_unseeded_partial",
    "Verif.Misc.C62_logged_fresh",
    "Verif.Misc.C62_logged_refuted"
   ],
   "note": "Holds for buffers never assigned with set, for loggers that do not resume and for names that no other run shares. set loses the bound, a resumed logger forgets its best score, and an unseeded logger loads the files of other runs (counterexamples)."
  },
  {
   "property": "C63",
   "status": "partial",
   "theorems": [
    "Verif.Misc.C63_index_map_partial",
    "Verif.Misc.C63_index_map_refuted",
    "Verif.Misc.C63_joints_partial",
    "Verif.Misc.C63_joints_refuted",
    "Verif.Misc.C63_limits_partial",
    "Verif.Misc.C63_limits_refuted",
    "Verif.Misc.C63_succeeds",
    "Verif.Misc.C63_modify"
   ],
   "note": "Holds if no index is removed twice; for the limits if removals are in increasing order; for the joints if none is removed (counterexamples otherwise). In C63_modify the arrays of different keys are different; C163 looks at which arrays they are."
  },
  {
   "property": "C64",
   "status": "proved",
   "theorems": [
    "Verif.Vector.Pipes.C64_call",
    "Verif.Vector.Pipes.C64_observations",
    "Verif.Vector.Pipes.C64_no_deadlock",
    "Verif.Vector.Pipes.C64_terminates",
    "Verif.Vector.Pipes.C64_stop"
   ],
   "note": ""
  },
  {
   "property": "C65",
   "status": "partial",
   "theorems": [
    "Verif.Envs.C65_puddle",
    "Verif.Envs.C65_puddle_motion",
    "Verif.Envs.C65_puddle_reward",
    "Verif.Envs.C65_puddle_center",
    "Verif.Envs.C65_ship",
    "Verif.Envs.C65_ship_reset",
    "Verif.Envs.C65_ship_outcome",
    "Verif.Envs.C65_lqr",
    "Verif.Envs.C65_lqr_run",
    "Verif.Envs.C65_lqr_reset",
    "Verif.Envs.C65_lqr_refuted",
    "Verif.Envs.C65_car",
    "Verif.Envs.C65_pendulum",
    "Verif.Envs.C65_cart",
    "Verif.Envs.C65_segway",
    "Verif.Envs.C65_segway_refuted"
   ],
   "note": "PuddleWorld, ShipSteering, InvertedPendulum and non-episodic LQR stay in their spaces. An episodic LQR returns its absorbing states outside of the space, CarOnHill ends outside of its space by design, and the observation space declared by Segway is empty (counterexamples). The integrator is arbitrary."
  },
  {
   "property": "C66",
   "status": "proved",
   "theorems": [
    "Verif.Core.C66_actions",
    "Verif.Core.C66_agentPreprocess_order"
   ],
   "note": ""
  },
  {
   "property": "C67",
   "status": "proved",
   "theorems": [
    "Verif.Core.C67_thetas",
    "Verif.Core.C67_thetas_per_fit"
   ],
   "note": ""
  },
  {
   "property": "C68",
   "status": "proved",
   "theorems": [
    "Verif.Core.C68_callback_step",
    "Verif.Core.C68_callbacks_fit"
   ],
   "note": ""
  },
  {
   "property": "C69",
   "status": "partial",
   "theorems": [
    "Verif.Dataset.C09_list_n_episodes_partial",
    "Verif.Dataset.C09_list_n_episodes_refuted",
    "Verif.Dataset.C11_list_add_refuted"
   ],
   "note": "True of n_episodes with Python booleans; false with numpy booleans, and + always raises."
  },
  {
   "property": "C70",
   "status": "proved",
   "theorems": [
    "Verif.Vector.C70_episodes_continue"
   ],
   "note": "At least two environments: with one, every run raises (C133)."
  },
  {
   "property": "C71",
   "status": "partial",
   "theorems": [
    "Verif.Policy.C71_epsGreedy_read_only_partial",
    "Verif.Policy.C71_boltzmann_refuted"
   ],
   "note": "Boltzmann and Mellowmax call their inverse temperature, which updates it (counterexample with a LinearParameter)."
  },
  {
   "property": "C72",
   "status": "partial",
   "theorems": [
    "Verif.Policy.C72_increasing_in_unit_interval_partial",
    "Verif.Policy.C72_cells_refuted",
    "Verif.Policy.C72_single_partial",
    "Verif.Policy.C72_index_ignored_refuted",
    "Verif.Policy.C72_call_raises_refuted",
    "Verif.Policy.C72_window_refuted"
   ],
   "note": "Range proved; with a single cell the values are the stated function of the sample variance of the targets. Refuted for several cells: update(index) shares one counter, a call ignores its index, and with a cell for each pair and at least three actions every call raises. A windowed parameter raises at the first or second call, or has the value 0 from the third call on."
  },
  {
   "property": "C73",
   "status": "partial",
   "theorems": [
    "Verif.TD.C73_local_partial",
    "Verif.TD.C73_always_absorbing_partial",
    "Verif.TD.C73_absorbing_refuted"
   ],
   "note": "Absorbing transitions do not enter the estimate of the next value (counterexample)."
  },
  {
   "property": "C74",
   "status": "proved",
   "theorems": [
    "Verif.TD.C74_lambda_zero",
    "Verif.TD.C74_linear_lambda_zero",
    "Verif.TD.C74_first_update",
    "Verif.TD.C74_forward_view",
    "Verif.TD.C74_linear_trace"
   ],
   "note": ""
  },
  {
   "property": "C75",
   "status": "proved",
   "theorems": [
    "Verif.ValueFn.C75_lambda_one",
    "Verif.ValueFn.C75_lambda_return"
   ],
   "note": ""
  },
  {
   "property": "C76",
   "status": "partial",
   "theorems": [
    "Verif.ValueFn.C76_sequences_partial",
    "Verif.ValueFn.C76_first_steps",
    "Verif.ValueFn.C76_sequences_refuted"
   ],
   "note": "Violated for the first truncation_length steps of a dataset with several trajectories."
  },
  {
   "property": "C77",
   "status": "partial",
   "theorems": [
    "Verif.Stats.C77_mean_partial",
    "Verif.Stats.C77_welford_partial",
    "Verif.Stats.C77_batches_refuted",
    "Verif.Stats.C77_grid_columns",
    "Verif.Stats.C77_grid_call",
    "Verif.Stats.C77_grid_refuted"
   ],
   "note": "The standard deviation depends on the batching (counterexample). Observations with two axes are taken for batches of rows."
  },
  {
   "property": "C78",
   "status": "proved",
   "theorems": [
    "Verif.Stats.C78_exponential",
    "Verif.Stats.C78_exponential_range",
    "Verif.Stats.C78_window"
   ],
   "note": ""
  },
  {
   "property": "C79",
   "status": "proved",
   "theorems": [
    "Verif.Stats.C79_adam",
    "Verif.Stats.C79_constant_gradient",
    "Verif.Stats.C79_average_range"
   ],
   "note": ""
  },
  {
   "property": "C80",
   "status": "proved",
   "theorems": [
    "Verif.Utils.C80_function",
    "Verif.Utils.C80_policy"
   ],
   "note": ""
  },
  {
   "property": "C81",
   "status": "proved",
   "theorems": [
    "Verif.Approx.C81_action_predict",
    "Verif.Approx.C81_q_predict",
    "Verif.Approx.C81_action_fit"
   ],
   "note": ""
  },
  {
   "property": "C82",
   "status": "proved",
   "theorems": [
    "Verif.Approx.C82_least_squares"
   ],
   "note": "The pseudo-inverse is an argument with two Moore-Penrose conditions."
  },
  {
   "property": "C83",
   "status": "partial",
   "theorems": [
    "Verif.Approx.C83_linear",
    "Verif.Approx.C83_action",
    "Verif.Approx.C83_cmac_partial",
    "Verif.Approx.C83_cmac_refuted"
   ],
   "note": "CMAC.diff applies the features twice (counterexample)."
  },
  {
   "property": "C84",
   "status": "proved",
   "theorems": [
    "Verif.Approx.C84_predict",
    "Verif.Approx.C84_fit",
    "Verif.Approx.C84_local",
    "Verif.Approx.C84_covered"
   ],
   "note": "One output."
  },
  {
   "property": "C85",
   "status": "proved",
   "theorems": [
    "Verif.Approx.C85_predict",
    "Verif.Approx.C85_fit"
   ],
   "note": ""
  },
  {
   "property": "C86",
   "status": "partial",
   "theorems": [
    "Verif.Solvers.C86_gradient_V_partial",
    "Verif.Solvers.C86_gradient_Q_partial",
    "Verif.Solvers.C86_refuted"
   ],
   "note": "The gradient is right for one state; batches of two or more states raise."
  },
  {
   "property": "C87",
   "status": "partial",
   "theorems": [
    "Verif.Envs.C87_gate_partial",
    "Verif.Envs.C87_parallel_refuted"
   ],
   "note": "Exact unless the movement is parallel to the gate; a ship that moves along the gate is not detected."
  },
  {
   "property": "C88",
   "status": "proved",
   "theorems": [
    "Verif.Envs.C88_hill_height",
    "Verif.Envs.C88_hill_angle",
    "Verif.Envs.C88_hill_slope",
    "Verif.Envs.C88_hill_curvature",
    "Verif.Envs.C88_car_energy",
    "Verif.Envs.C88_pendulum_energy",
    "Verif.Envs.C88_cart",
    "Verif.Envs.C88_segway",
    "Verif.Envs.C88_kinematics"
   ],
   "note": "At the bottom of the hill (p = 0) the second derivative jumps and the energy identity is stated away from it."
  },
  {
   "property": "C89",
   "status": "partial",
   "theorems": [
    "Verif.DQN.C89_dqn",
    "Verif.DQN.C89_double",
    "Verif.DQN.C89_averaged",
    "Verif.DQN.C89_maxmin",
    "Verif.DQN.C89_quantile",
    "Verif.DQN.C89_double_le",
    "Verif.DQN.C89_maxmin_le",
    "Verif.DQN.C89_clipped",
    "Verif.DQN.C89_dueling_partial",
    "Verif.DQN.C89_dueling_refuted",
    "Verif.DQN.C89_levels",
    "Verif.DQN.C89_loss",
    "Verif.DQN.C89_shared_levels_refuted"
   ],
   "note": "Everything but two points: a dueling network that subtracts the maximum raises for every input, because the maximum of a tensor along an axis is a pair; and the quantile levels are an attribute of the class and are shared by all QuantileDQN agents of the process (counterexample)."
  },
  {
   "property": "C90",
   "status": "proved",
   "theorems": [
    "Verif.DQN.C90_fqi",
    "Verif.DQN.C90_approximate",
    "Verif.DQN.C90_greedy"
   ],
   "note": "The bound on the errors is required in the sup norm, at every state and action."
  },
  {
   "property": "C91",
   "status": "partial",
   "theorems": [
    "Verif.ActorCritic.C91_bounds",
    "Verif.ActorCritic.C91_reach",
    "Verif.ActorCritic.C91_sigma",
    "Verif.ActorCritic.C91_logprob_partial",
    "Verif.ActorCritic.C91_logprob_refuted",
    "Verif.ActorCritic.C91_normal",
    "Verif.ActorCritic.C91_density",
    "Verif.ActorCritic.C91_density_box",
    "Verif.ActorCritic.C91_unit_partial",
    "Verif.ActorCritic.C91_temperature",
    "Verif.ActorCritic.C91_default_target"
   ],
   "note": "The log-probability is that of the action before scaling to the bounds; it differs by the logarithms of the half-widths (counterexample)."
  },
  {
   "property": "C92",
   "status": "partial",
   "theorems": [
    "Verif.ActorCritic.C92_standardise_partial",
    "Verif.ActorCritic.C92_constant",
    "Verif.ActorCritic.C92_refuted"
   ],
   "note": "Fails (NaN) for batches of one sample."
  },
  {
   "property": "C93",
   "status": "proved",
   "theorems": [
    "Verif.ActorCritic.C93_step",
    "Verif.ActorCritic.C93_average",
    "Verif.ActorCritic.C93_traces",
    "Verif.ActorCritic.C93_traces_average",
    "Verif.ActorCritic.C93_copdac_critic",
    "Verif.ActorCritic.C93_copdac_actor"
   ],
   "note": ""
  },
  {
   "property": "C94",
   "status": "partial",
   "theorems": [
    "Verif.Search.C94_baseline",
    "Verif.Search.C94_least_squares",
    "Verif.Search.C94_enac",
    "Verif.Search.C94_reinforce_unbiased",
    "Verif.Search.C94_gpomdp_objective",
    "Verif.Search.C94_gpomdp_plain",
    "Verif.Search.C94_gpomdp_unbiased_partial",
    "Verif.Search.C94_reinforce_consistent",
    "Verif.Search.C94_gpomdp_consistent_partial",
    "Verif.Search.C94_gpomdp_blind",
    "Verif.Search.C94_gpomdp_refuted",
    "Verif.Search.C94_baseline_refuted",
    "Verif.Search.C94_enac_consistent",
    "Verif.Search.C94_enac_natural_partial",
    "Verif.Search.C94_enac_refuted"
   ],
   "note": "Refuted: with the baseline computed from the same batch REINFORCE is biased for finitely many episodes (half the gradient with two episodes in an example), but consistent. GPOMDP computes the baseline of a time step from the episodes that reach it; when episodes can end early it is not even consistent: if the rewards of a time step are equal, as in survival tasks, its gradient is zero. Proved: unbiasedness with fixed baselines, for GPOMDP without absorbing transitions or without baselines; almost sure convergence of the gradients given to the optimizer as the number of independent episodes grows. The gradient of eNAC converges to the natural gradient if the discount factor is one; for smaller ones it can point downhill (refuted with a two-step task)."
  },
  {
   "property": "C95",
   "status": "proved",
   "theorems": [
    "Verif.Search.C95_gaussian_policy",
    "Verif.Search.C95_diagonal_policy",
    "Verif.Search.C95_state_std_policy",
    "Verif.Search.C95_state_log_std_policy",
    "Verif.Search.C95_weights",
    "Verif.Search.C95_gauss",
    "Verif.Search.C95_diag",
    "Verif.Search.C95_chol"
   ],
   "note": ""
  },
  {
   "property": "C96",
   "status": "proved",
   "theorems": [
    "Verif.Search.C96_divergence",
    "Verif.Search.C96_divergence_nonneg",
    "Verif.Search.C96_chol",
    "Verif.Search.C96_chol_optimal",
    "Verif.Search.C96_diag",
    "Verif.Search.C96_gauss",
    "Verif.Search.C96_meaning"
   ],
   "note": "The multipliers found by scipy are arguments."
  },
  {
   "property": "C97",
   "status": "partial",
   "theorems": [
    "Verif.Search.C97_dual_gradient",
    "Verif.Search.C97_dual_bound",
    "Verif.Search.C97_reps_optimal",
    "Verif.Search.C97_weights",
    "Verif.Search.C97_improvement",
    "Verif.Search.C97_update",
    "Verif.Search.C97_pgpe",
    "Verif.Search.C97_kl_refuted"
   ],
   "note": "Everything but the documented bound on the divergence between the distributions: the bound holds for the weights of the samples only (counterexample)."
  },
  {
   "property": "C98",
   "status": "partial",
   "theorems": [
    "Verif.Search.C98_closed_form",
    "Verif.Search.C98_optimal",
    "Verif.Search.C98_expected",
    "Verif.Search.C98_concave",
    "Verif.Search.C98_features",
    "Verif.Search.C98_surrogate_partial",
    "Verif.Search.C98_surrogate_refuted",
    "Verif.Search.C98_update"
   ],
   "note": "The update is exact. The surrogate is not the fitted model: the coefficients of mixed products are written to both triangles and so count twice (counterexample, exact formula in the partial theorem)."
  },
  {
   "property": "C99",
   "status": "partial",
   "theorems": [
    "Verif.Search.C99_weights",
    "Verif.Search.C99_draw_partial",
    "Verif.Search.C99_draw_refuted",
    "Verif.Search.C99_resize_refuted",
    "Verif.Search.C99_start_partial",
    "Verif.Search.C99_default_refuted",
    "Verif.Search.C99_deterministic_refuted",
    "Verif.Search.C99_number_refuted"
   ],
   "note": "Holds for sampling agents with a context builder that returns contexts and a fixed number of environments. With the default context builder, for deterministic agents, after a change of the number of environments, and for policies with states the code always fails (counterexamples)."
  }
 ]
}