/-
Generated by tools/save_table.py from the text of mushroom_rl: one entry for every class that derives from
`Serializable` (mushroom_rl/core/serialization.py). Do not edit.

`sets` are the attributes assigned by the constructor, with the methods it calls and the constructors of the base
classes; `registered` what it passes to `_add_save_attr`, with the method and the '!' flag (the method is `none` if it is
chosen at run time by `_get_serialization_method`, core/serialization.py L266-271); `post` what `_post_load` assigns, with
the methods it calls; `reads` the attributes in `sets` that some other method of the class reads through `self`.
-/
import Verif.Serialization.Model

namespace Verif.Serialization.Table

/-- The names of all the attributes below. -/
inductive Attr where
  | «J_episode» | «Q» | «Q_tilde» | «R_tilde» | «_A» | «_Q2» | «_V» | «_a_values» | «_absorbing» | «_action_dim»
  | «_action_space_shape» | «_action_type» | «_actions» | «_actor_approximator» | «_actor_predict_params»
  | «_agent_backend» | «_agent_info» | «_agent_preprocessors» | «_alpha» | «_alpha_double» | «_alpha_mm»
  | «_alpha_omega» | «_alpha_optim» | «_alpha_r» | «_alpha_theta» | «_alpha_v» | «_alpha_z» | «_approximator»
  | «_array_backend» | «_avg_buffer» | «_avg_value» | «_batch_size» | «_beta» | «_beta1» | «_beta2» | «_beta_max»
  | «_beta_min» | «_beta_v» | «_beta_z» | «_central_a» | «_cg_damping» | «_cg_residual_tol» | «_chol_sigma»
  | «_clip_obs» | «_clip_reward» | «_clipping» | «_clipping_params» | «_coeff» | «_context_builder»
  | «_context_shape» | «_core_preprocessors» | «_critic_approximator» | «_critic_fit_params»
  | «_critic_predict_params» | «_data» | «_data_type» | «_dataset» | «_dataset_info» | «_delta» | «_delta_a»
  | «_deterministic» | «_device» | «_dim_env_state» | «_dropout» | «_dt» | «_duration» | «_e_theta» | «_e_v»
  | «_ent_coeff» | «_entropy_coeff» | «_env_backend» | «_episode_info» | «_eps» | «_eps_log_prob» | «_eps_ppo»
  | «_epsilon» | «_exp» | «_exponential» | «_fit» | «_fit_count» | «_fit_params» | «_full» | «_g» | «_high» | «_idx»
  | «_impl» | «_index» | «_info» | «_initial_size» | «_initial_value» | «_input_shape» | «_inv_sigma»
  | «_is_stateful» | «_iter» | «_kappa» | «_key_mapping» | «_lambda» | «_last» | «_last_loss» | «_len»
  | «_log_alpha» | «_log_sigma» | «_log_std_approximator» | «_log_std_max» | «_log_std_min» | «_logger»
  | «_logits» | «_loss» | «_loss_filename» | «_low» | «_lr» | «_m» | «_mask» | «_max_kl» | «_max_size» | «_max_value»
  | «_maximize» | «_mdp_info» | «_min_value» | «_model» | «_mu» | «_mu_approximator» | «_n» | «_n_actions»
  | «_n_approximators» | «_n_atoms» | «_n_envs» | «_n_epochs_cg» | «_n_epochs_line_search» | «_n_epochs_policy»
  | «_n_fit_targets» | «_n_fitted_target_models» | «_n_inputs» | «_n_iterations» | «_n_models» | «_n_quantiles»
  | «_n_steps_return» | «_n_tables» | «_n_updates» | «_next_q» | «_next_states» | «_noise_clip» | «_noise_std»
  | «_obs_delta» | «_obs_mask» | «_obs_mean» | «_obs_runstand» | «_obs_shape» | «_old_policy» | «_omega»
  | «_optimizer» | «_outer» | «_output_shape» | «_parameter_value» | «_parameters» | «_periodic» | «_phi»
  | «_policy_dataset» | «_policy_delay» | «_policy_next_states» | «_policy_states» | «_policy_vector»
  | «_precision» | «_predict_params» | «_prediction» | «_psi» | «_q_old» | «_quiet» | «_r_bar» | «_reinitialize»
  | «_replay_memory» | «_rewards» | «_rho» | «_run_norm_obs» | «_s» | «_samples» | «_sampling» | «_shape»
  | «_shape_mapping» | «_sigma» | «_sigma_approximator» | «_sigma_coeff» | «_state_type» | «_states» | «_std»
  | «_std_approximator» | «_storage» | «_structured_storage» | «_t» | «_target» | «_target_actor_approximator»
  | «_target_critic_approximator» | «_target_entropy» | «_target_update_frequency» | «_tau» | «_theta»
  | «_theta_list» | «_tol» | «_tree» | «_truncation_length» | «_use_log_alpha_loss» | «_v» | «_v_max» | «_v_min»
  | «_w» | «_w1» | «_w2» | «_warmup_transitions» | «_weights_var» | «_window» | «_window_size» | «_x» | «_x0» | «_x2»
  | «_x_prev» | «_y» | «_z» | «action_dtype» | «action_shape» | «action_space» | «approximator» | «backend»
  | «baseline_den» | «baseline_num» | «beta» | «data» | «dataset» | «delta» | «device» | «df» | «distribution» | «dt»
  | «e» | «eps» | «gamma» | «h0» | «horizon» | «is_episodic» | «is_stateful» | «kappa» | «list_reward»
  | «list_reward_ep» | «list_sum_d_log_pi» | «list_sum_d_log_pi_ep» | «mdp_info» | «model» | «n» | «n_actions»
  | «n_envs» | «network» | «next_action» | «observation_space» | «off_policy» | «old_q» | «optimizer» | «phi_c»
  | «phi_linear_» | «phi_quadratic_» | «policy» | «policy_state_shape» | «psi_ext» | «regressor_linear»
  | «regressor_quadratic» | «state_dtype» | «state_shape» | «step_count» | «sum_d_log_pi» | «sum_grad_log»
  | «sum_grad_log_list» | «table» | «target_approximator» | «values»
deriving DecidableEq

/-- The Python name. -/
def Attr.name : Attr → String
  | .«J_episode» => "J_episode"
  | .«Q» => "Q"
  | .«Q_tilde» => "Q_tilde"
  | .«R_tilde» => "R_tilde"
  | .«_A» => "_A"
  | .«_Q2» => "_Q2"
  | .«_V» => "_V"
  | .«_a_values» => "_a_values"
  | .«_absorbing» => "_absorbing"
  | .«_action_dim» => "_action_dim"
  | .«_action_space_shape» => "_action_space_shape"
  | .«_action_type» => "_action_type"
  | .«_actions» => "_actions"
  | .«_actor_approximator» => "_actor_approximator"
  | .«_actor_predict_params» => "_actor_predict_params"
  | .«_agent_backend» => "_agent_backend"
  | .«_agent_info» => "_agent_info"
  | .«_agent_preprocessors» => "_agent_preprocessors"
  | .«_alpha» => "_alpha"
  | .«_alpha_double» => "_alpha_double"
  | .«_alpha_mm» => "_alpha_mm"
  | .«_alpha_omega» => "_alpha_omega"
  | .«_alpha_optim» => "_alpha_optim"
  | .«_alpha_r» => "_alpha_r"
  | .«_alpha_theta» => "_alpha_theta"
  | .«_alpha_v» => "_alpha_v"
  | .«_alpha_z» => "_alpha_z"
  | .«_approximator» => "_approximator"
  | .«_array_backend» => "_array_backend"
  | .«_avg_buffer» => "_avg_buffer"
  | .«_avg_value» => "_avg_value"
  | .«_batch_size» => "_batch_size"
  | .«_beta» => "_beta"
  | .«_beta1» => "_beta1"
  | .«_beta2» => "_beta2"
  | .«_beta_max» => "_beta_max"
  | .«_beta_min» => "_beta_min"
  | .«_beta_v» => "_beta_v"
  | .«_beta_z» => "_beta_z"
  | .«_central_a» => "_central_a"
  | .«_cg_damping» => "_cg_damping"
  | .«_cg_residual_tol» => "_cg_residual_tol"
  | .«_chol_sigma» => "_chol_sigma"
  | .«_clip_obs» => "_clip_obs"
  | .«_clip_reward» => "_clip_reward"
  | .«_clipping» => "_clipping"
  | .«_clipping_params» => "_clipping_params"
  | .«_coeff» => "_coeff"
  | .«_context_builder» => "_context_builder"
  | .«_context_shape» => "_context_shape"
  | .«_core_preprocessors» => "_core_preprocessors"
  | .«_critic_approximator» => "_critic_approximator"
  | .«_critic_fit_params» => "_critic_fit_params"
  | .«_critic_predict_params» => "_critic_predict_params"
  | .«_data» => "_data"
  | .«_data_type» => "_data_type"
  | .«_dataset» => "_dataset"
  | .«_dataset_info» => "_dataset_info"
  | .«_delta» => "_delta"
  | .«_delta_a» => "_delta_a"
  | .«_deterministic» => "_deterministic"
  | .«_device» => "_device"
  | .«_dim_env_state» => "_dim_env_state"
  | .«_dropout» => "_dropout"
  | .«_dt» => "_dt"
  | .«_duration» => "_duration"
  | .«_e_theta» => "_e_theta"
  | .«_e_v» => "_e_v"
  | .«_ent_coeff» => "_ent_coeff"
  | .«_entropy_coeff» => "_entropy_coeff"
  | .«_env_backend» => "_env_backend"
  | .«_episode_info» => "_episode_info"
  | .«_eps» => "_eps"
  | .«_eps_log_prob» => "_eps_log_prob"
  | .«_eps_ppo» => "_eps_ppo"
  | .«_epsilon» => "_epsilon"
  | .«_exp» => "_exp"
  | .«_exponential» => "_exponential"
  | .«_fit» => "_fit"
  | .«_fit_count» => "_fit_count"
  | .«_fit_params» => "_fit_params"
  | .«_full» => "_full"
  | .«_g» => "_g"
  | .«_high» => "_high"
  | .«_idx» => "_idx"
  | .«_impl» => "_impl"
  | .«_index» => "_index"
  | .«_info» => "_info"
  | .«_initial_size» => "_initial_size"
  | .«_initial_value» => "_initial_value"
  | .«_input_shape» => "_input_shape"
  | .«_inv_sigma» => "_inv_sigma"
  | .«_is_stateful» => "_is_stateful"
  | .«_iter» => "_iter"
  | .«_kappa» => "_kappa"
  | .«_key_mapping» => "_key_mapping"
  | .«_lambda» => "_lambda"
  | .«_last» => "_last"
  | .«_last_loss» => "_last_loss"
  | .«_len» => "_len"
  | .«_log_alpha» => "_log_alpha"
  | .«_log_sigma» => "_log_sigma"
  | .«_log_std_approximator» => "_log_std_approximator"
  | .«_log_std_max» => "_log_std_max"
  | .«_log_std_min» => "_log_std_min"
  | .«_logger» => "_logger"
  | .«_logits» => "_logits"
  | .«_loss» => "_loss"
  | .«_loss_filename» => "_loss_filename"
  | .«_low» => "_low"
  | .«_lr» => "_lr"
  | .«_m» => "_m"
  | .«_mask» => "_mask"
  | .«_max_kl» => "_max_kl"
  | .«_max_size» => "_max_size"
  | .«_max_value» => "_max_value"
  | .«_maximize» => "_maximize"
  | .«_mdp_info» => "_mdp_info"
  | .«_min_value» => "_min_value"
  | .«_model» => "_model"
  | .«_mu» => "_mu"
  | .«_mu_approximator» => "_mu_approximator"
  | .«_n» => "_n"
  | .«_n_actions» => "_n_actions"
  | .«_n_approximators» => "_n_approximators"
  | .«_n_atoms» => "_n_atoms"
  | .«_n_envs» => "_n_envs"
  | .«_n_epochs_cg» => "_n_epochs_cg"
  | .«_n_epochs_line_search» => "_n_epochs_line_search"
  | .«_n_epochs_policy» => "_n_epochs_policy"
  | .«_n_fit_targets» => "_n_fit_targets"
  | .«_n_fitted_target_models» => "_n_fitted_target_models"
  | .«_n_inputs» => "_n_inputs"
  | .«_n_iterations» => "_n_iterations"
  | .«_n_models» => "_n_models"
  | .«_n_quantiles» => "_n_quantiles"
  | .«_n_steps_return» => "_n_steps_return"
  | .«_n_tables» => "_n_tables"
  | .«_n_updates» => "_n_updates"
  | .«_next_q» => "_next_q"
  | .«_next_states» => "_next_states"
  | .«_noise_clip» => "_noise_clip"
  | .«_noise_std» => "_noise_std"
  | .«_obs_delta» => "_obs_delta"
  | .«_obs_mask» => "_obs_mask"
  | .«_obs_mean» => "_obs_mean"
  | .«_obs_runstand» => "_obs_runstand"
  | .«_obs_shape» => "_obs_shape"
  | .«_old_policy» => "_old_policy"
  | .«_omega» => "_omega"
  | .«_optimizer» => "_optimizer"
  | .«_outer» => "_outer"
  | .«_output_shape» => "_output_shape"
  | .«_parameter_value» => "_parameter_value"
  | .«_parameters» => "_parameters"
  | .«_periodic» => "_periodic"
  | .«_phi» => "_phi"
  | .«_policy_dataset» => "_policy_dataset"
  | .«_policy_delay» => "_policy_delay"
  | .«_policy_next_states» => "_policy_next_states"
  | .«_policy_states» => "_policy_states"
  | .«_policy_vector» => "_policy_vector"
  | .«_precision» => "_precision"
  | .«_predict_params» => "_predict_params"
  | .«_prediction» => "_prediction"
  | .«_psi» => "_psi"
  | .«_q_old» => "_q_old"
  | .«_quiet» => "_quiet"
  | .«_r_bar» => "_r_bar"
  | .«_reinitialize» => "_reinitialize"
  | .«_replay_memory» => "_replay_memory"
  | .«_rewards» => "_rewards"
  | .«_rho» => "_rho"
  | .«_run_norm_obs» => "_run_norm_obs"
  | .«_s» => "_s"
  | .«_samples» => "_samples"
  | .«_sampling» => "_sampling"
  | .«_shape» => "_shape"
  | .«_shape_mapping» => "_shape_mapping"
  | .«_sigma» => "_sigma"
  | .«_sigma_approximator» => "_sigma_approximator"
  | .«_sigma_coeff» => "_sigma_coeff"
  | .«_state_type» => "_state_type"
  | .«_states» => "_states"
  | .«_std» => "_std"
  | .«_std_approximator» => "_std_approximator"
  | .«_storage» => "_storage"
  | .«_structured_storage» => "_structured_storage"
  | .«_t» => "_t"
  | .«_target» => "_target"
  | .«_target_actor_approximator» => "_target_actor_approximator"
  | .«_target_critic_approximator» => "_target_critic_approximator"
  | .«_target_entropy» => "_target_entropy"
  | .«_target_update_frequency» => "_target_update_frequency"
  | .«_tau» => "_tau"
  | .«_theta» => "_theta"
  | .«_theta_list» => "_theta_list"
  | .«_tol» => "_tol"
  | .«_tree» => "_tree"
  | .«_truncation_length» => "_truncation_length"
  | .«_use_log_alpha_loss» => "_use_log_alpha_loss"
  | .«_v» => "_v"
  | .«_v_max» => "_v_max"
  | .«_v_min» => "_v_min"
  | .«_w» => "_w"
  | .«_w1» => "_w1"
  | .«_w2» => "_w2"
  | .«_warmup_transitions» => "_warmup_transitions"
  | .«_weights_var» => "_weights_var"
  | .«_window» => "_window"
  | .«_window_size» => "_window_size"
  | .«_x» => "_x"
  | .«_x0» => "_x0"
  | .«_x2» => "_x2"
  | .«_x_prev» => "_x_prev"
  | .«_y» => "_y"
  | .«_z» => "_z"
  | .«action_dtype» => "action_dtype"
  | .«action_shape» => "action_shape"
  | .«action_space» => "action_space"
  | .«approximator» => "approximator"
  | .«backend» => "backend"
  | .«baseline_den» => "baseline_den"
  | .«baseline_num» => "baseline_num"
  | .«beta» => "beta"
  | .«data» => "data"
  | .«dataset» => "dataset"
  | .«delta» => "delta"
  | .«device» => "device"
  | .«df» => "df"
  | .«distribution» => "distribution"
  | .«dt» => "dt"
  | .«e» => "e"
  | .«eps» => "eps"
  | .«gamma» => "gamma"
  | .«h0» => "h0"
  | .«horizon» => "horizon"
  | .«is_episodic» => "is_episodic"
  | .«is_stateful» => "is_stateful"
  | .«kappa» => "kappa"
  | .«list_reward» => "list_reward"
  | .«list_reward_ep» => "list_reward_ep"
  | .«list_sum_d_log_pi» => "list_sum_d_log_pi"
  | .«list_sum_d_log_pi_ep» => "list_sum_d_log_pi_ep"
  | .«mdp_info» => "mdp_info"
  | .«model» => "model"
  | .«n» => "n"
  | .«n_actions» => "n_actions"
  | .«n_envs» => "n_envs"
  | .«network» => "network"
  | .«next_action» => "next_action"
  | .«observation_space» => "observation_space"
  | .«off_policy» => "off_policy"
  | .«old_q» => "old_q"
  | .«optimizer» => "optimizer"
  | .«phi_c» => "phi_c"
  | .«phi_linear_» => "phi_linear_"
  | .«phi_quadratic_» => "phi_quadratic_"
  | .«policy» => "policy"
  | .«policy_state_shape» => "policy_state_shape"
  | .«psi_ext» => "psi_ext"
  | .«regressor_linear» => "regressor_linear"
  | .«regressor_quadratic» => "regressor_quadratic"
  | .«state_dtype» => "state_dtype"
  | .«state_shape» => "state_shape"
  | .«step_count» => "step_count"
  | .«sum_d_log_pi» => "sum_d_log_pi"
  | .«sum_grad_log» => "sum_grad_log"
  | .«sum_grad_log_list» => "sum_grad_log_list"
  | .«table» => "table"
  | .«target_approximator» => "target_approximator"
  | .«values» => "values"

structure Cls where
  name : String
  registered : List (Attr × Option Meth × Bool)
  post : List Attr
  sets : List Attr
  reads : List Attr

/-- mushroom_rl/algorithms/actor_critic/classic_actor_critic/copdac_q.py L10-99. -/
def copdac_q : Cls where
  name := "COPDAC_Q"
  registered := [(.«_mu», (some .mushroom), false), (.«_psi», (some .pickle), false),
    (.«_alpha_theta», (some .mushroom), false), (.«_alpha_omega», (some .mushroom), false),
    (.«_alpha_v», (some .mushroom), false), (.«_V», (some .mushroom), false),
    (.«_A», (some .mushroom), false), (.«policy», (some .mushroom), false),
    (.«next_action», (some .none), false), (.«mdp_info», (some .mushroom), false),
    (.«_info», (some .mushroom), false), (.«_agent_backend», (some .primitive), false),
    (.«_env_backend», (some .primitive), false), (.«_core_preprocessors», (some .mushroom), false),
    (.«_agent_preprocessors», (some .mushroom), false), (.«_logger», (some .none), false)]
  post := []
  sets := [.«_mu», .«_psi», .«_alpha_theta», .«_alpha_omega», .«_alpha_v», .«_V», .«_A», .«mdp_info», .«_info»,
    .«policy», .«next_action», .«_agent_backend», .«_env_backend», .«_core_preprocessors»,
    .«_agent_preprocessors», .«_logger»]
  reads := [.«_psi», .«_A», .«_alpha_theta», .«_mu», .«_V», .«_alpha_omega», .«_alpha_v», .«mdp_info»,
    .«next_action», .«policy», .«_core_preprocessors», .«_agent_preprocessors», .«_agent_backend»,
    .«_env_backend», .«_info»]

/-- mushroom_rl/algorithms/actor_critic/classic_actor_critic/stochastic_ac.py L10-92. -/
def stochasticAC : Cls where
  name := "StochasticAC"
  registered := [(.«_psi», (some .pickle), false), (.«_alpha_theta», (some .mushroom), false),
    (.«_alpha_v», (some .mushroom), false), (.«_lambda», (some .mushroom), false),
    (.«_V», (some .mushroom), false), (.«_e_v», (some .numpy), false), (.«_e_theta», (some .numpy), false),
    (.«policy», (some .mushroom), false), (.«next_action», (some .none), false),
    (.«mdp_info», (some .mushroom), false), (.«_info», (some .mushroom), false),
    (.«_agent_backend», (some .primitive), false), (.«_env_backend», (some .primitive), false),
    (.«_core_preprocessors», (some .mushroom), false), (.«_agent_preprocessors», (some .mushroom), false),
    (.«_logger», (some .none), false)]
  post := []
  sets := [.«_psi», .«_alpha_theta», .«_alpha_v», .«_lambda», .«_V», .«_e_v», .«_e_theta», .«mdp_info», .«_info»,
    .«policy», .«next_action», .«_agent_backend», .«_env_backend», .«_core_preprocessors»,
    .«_agent_preprocessors», .«_logger»]
  reads := [.«_V», .«policy», .«_e_v», .«_e_theta», .«_psi», .«_alpha_v», .«_alpha_theta», .«mdp_info», .«_lambda»,
    .«next_action», .«_core_preprocessors», .«_agent_preprocessors», .«_agent_backend», .«_env_backend»,
    .«_info»]

/-- mushroom_rl/algorithms/actor_critic/classic_actor_critic/stochastic_ac.py L95-126. -/
def stochasticAC_AVG : Cls where
  name := "StochasticAC_AVG"
  registered := [(.«_alpha_r», (some .mushroom), false), (.«_r_bar», (some .primitive), false),
    (.«_psi», (some .pickle), false), (.«_alpha_theta», (some .mushroom), false),
    (.«_alpha_v», (some .mushroom), false), (.«_lambda», (some .mushroom), false),
    (.«_V», (some .mushroom), false), (.«_e_v», (some .numpy), false), (.«_e_theta», (some .numpy), false),
    (.«policy», (some .mushroom), false), (.«next_action», (some .none), false),
    (.«mdp_info», (some .mushroom), false), (.«_info», (some .mushroom), false),
    (.«_agent_backend», (some .primitive), false), (.«_env_backend», (some .primitive), false),
    (.«_core_preprocessors», (some .mushroom), false), (.«_agent_preprocessors», (some .mushroom), false),
    (.«_logger», (some .none), false)]
  post := []
  sets := [.«_alpha_r», .«_r_bar», .«_psi», .«_alpha_theta», .«_alpha_v», .«_lambda», .«_V», .«_e_v», .«_e_theta»,
    .«mdp_info», .«_info», .«policy», .«next_action», .«_agent_backend», .«_env_backend»,
    .«_core_preprocessors», .«_agent_preprocessors», .«_logger»]
  reads := [.«_V», .«_alpha_r», .«_e_v», .«_e_theta», .«_r_bar», .«_lambda», .«policy», .«_psi», .«_alpha_v»,
    .«_alpha_theta», .«next_action», .«_core_preprocessors», .«_agent_preprocessors», .«_agent_backend»,
    .«_env_backend», .«_info»]

/-- mushroom_rl/algorithms/actor_critic/deep_actor_critic/a2c.py L12-77. -/
def a2c : Cls where
  name := "A2C"
  registered := [(.«_critic_fit_params», (some .pickle), false), (.«_entropy_coeff», (some .mushroom), false),
    (.«_V», (some .mushroom), false), (.«_optimizer», (some .torch), false),
    (.«_clipping», (some .torch), false), (.«_clipping_params», (some .pickle), false),
    (.«policy», (some .mushroom), false), (.«next_action», (some .none), false),
    (.«mdp_info», (some .mushroom), false), (.«_info», (some .mushroom), false),
    (.«_agent_backend», (some .primitive), false), (.«_env_backend», (some .primitive), false),
    (.«_core_preprocessors», (some .mushroom), false), (.«_agent_preprocessors», (some .mushroom), false),
    (.«_logger», (some .none), false)]
  post := [.«_parameters»]
  sets := [.«_critic_fit_params», .«_entropy_coeff», .«_V», .«_parameters», .«_optimizer», .«_clipping»,
    .«_clipping_params», .«mdp_info», .«_info», .«policy», .«next_action», .«_agent_backend»,
    .«_env_backend», .«_core_preprocessors», .«_agent_preprocessors», .«_logger»]
  reads := [.«_V», .«mdp_info», .«_critic_fit_params», .«policy», .«_entropy_coeff», .«_optimizer», .«_clipping»,
    .«_parameters», .«_clipping_params», .«next_action», .«_core_preprocessors», .«_agent_preprocessors»,
    .«_agent_backend», .«_env_backend», .«_info»]

/-- mushroom_rl/algorithms/actor_critic/deep_actor_critic/ddpg.py L13-143. -/
def ddpg : Cls where
  name := "DDPG"
  registered := [(.«_critic_fit_params», (some .pickle), false), (.«_critic_predict_params», (some .pickle), false),
    (.«_actor_predict_params», (some .pickle), false), (.«_batch_size», (some .mushroom), false),
    (.«_tau», (some .mushroom), false), (.«_policy_delay», (some .mushroom), false),
    (.«_fit_count», (some .primitive), false), (.«_replay_memory», (some .mushroom), false),
    (.«_critic_approximator», (some .mushroom), false),
    (.«_target_critic_approximator», (some .mushroom), false),
    (.«_target_actor_approximator», (some .mushroom), false), (.«_optimizer», (some .torch), false),
    (.«_clipping», (some .torch), false), (.«_clipping_params», (some .pickle), false),
    (.«policy», (some .mushroom), false), (.«next_action», (some .none), false),
    (.«mdp_info», (some .mushroom), false), (.«_info», (some .mushroom), false),
    (.«_agent_backend», (some .primitive), false), (.«_env_backend», (some .primitive), false),
    (.«_core_preprocessors», (some .mushroom), false), (.«_agent_preprocessors», (some .mushroom), false),
    (.«_logger», (some .none), false)]
  post := [.«_actor_approximator», .«_parameters»]
  sets := [.«_critic_fit_params», .«_actor_predict_params», .«_critic_predict_params», .«_critic_approximator»,
    .«_target_critic_approximator», .«_actor_approximator», .«_target_actor_approximator», .«_batch_size»,
    .«_tau», .«_policy_delay», .«_fit_count», .«_replay_memory», .«_parameters», .«_optimizer», .«_clipping»,
    .«_clipping_params», .«mdp_info», .«_info», .«policy», .«next_action», .«_agent_backend»,
    .«_env_backend», .«_core_preprocessors», .«_agent_preprocessors», .«_logger»]
  reads := [.«_replay_memory», .«_critic_approximator», .«_target_critic_approximator», .«_actor_approximator»,
    .«_target_actor_approximator», .«_batch_size», .«_critic_fit_params», .«_fit_count», .«mdp_info»,
    .«_policy_delay», .«_actor_predict_params», .«_critic_predict_params», .«_optimizer», .«_clipping»,
    .«_parameters», .«_clipping_params», .«_tau», .«next_action», .«policy», .«_core_preprocessors»,
    .«_agent_preprocessors», .«_agent_backend», .«_env_backend», .«_info»]

/-- mushroom_rl/algorithms/actor_critic/deep_actor_critic/deep_actor_critic.py L5-19. -/
def onPolicyDeepAC : Cls where
  name := "OnPolicyDeepAC"
  registered := [(.«policy», (some .mushroom), false), (.«next_action», (some .none), false),
    (.«mdp_info», (some .mushroom), false), (.«_info», (some .mushroom), false),
    (.«_agent_backend», (some .primitive), false), (.«_env_backend», (some .primitive), false),
    (.«_core_preprocessors», (some .mushroom), false), (.«_agent_preprocessors», (some .mushroom), false),
    (.«_logger», (some .none), false)]
  post := []
  sets := [.«mdp_info», .«_info», .«policy», .«next_action», .«_agent_backend», .«_env_backend»,
    .«_core_preprocessors», .«_agent_preprocessors», .«_logger»]
  reads := [.«next_action», .«policy», .«_core_preprocessors», .«_agent_preprocessors», .«_agent_backend»,
    .«_env_backend», .«_info»]

/-- mushroom_rl/algorithms/actor_critic/deep_actor_critic/deep_actor_critic.py L22-104. -/
def deepAC : Cls where
  name := "DeepAC"
  registered := [(.«_optimizer», (some .torch), false), (.«_clipping», (some .torch), false),
    (.«_clipping_params», (some .pickle), false), (.«policy», (some .mushroom), false),
    (.«next_action», (some .none), false), (.«mdp_info», (some .mushroom), false),
    (.«_info», (some .mushroom), false), (.«_agent_backend», (some .primitive), false),
    (.«_env_backend», (some .primitive), false), (.«_core_preprocessors», (some .mushroom), false),
    (.«_agent_preprocessors», (some .mushroom), false), (.«_logger», (some .none), false)]
  post := []
  sets := [.«_parameters», .«_optimizer», .«_clipping», .«_clipping_params», .«mdp_info», .«_info», .«policy»,
    .«next_action», .«_agent_backend», .«_env_backend», .«_core_preprocessors», .«_agent_preprocessors»,
    .«_logger»]
  reads := [.«_optimizer», .«_clipping», .«_parameters», .«_clipping_params», .«next_action», .«policy»,
    .«_core_preprocessors», .«_agent_preprocessors», .«_agent_backend», .«_env_backend», .«_info»]

/-- mushroom_rl/algorithms/actor_critic/deep_actor_critic/ppo.py L15-128. -/
def ppo : Cls where
  name := "PPO"
  registered := [(.«_critic_fit_params», (some .pickle), false), (.«_n_epochs_policy», (some .mushroom), false),
    (.«_batch_size», (some .mushroom), false), (.«_eps_ppo», (some .mushroom), false),
    (.«_ent_coeff», (some .mushroom), false), (.«_optimizer», (some .torch), false),
    (.«_lambda», (some .mushroom), false), (.«_V», (some .mushroom), false),
    (.«_iter», (some .primitive), false), (.«policy», (some .mushroom), false),
    (.«next_action», (some .none), false), (.«mdp_info», (some .mushroom), false),
    (.«_info», (some .mushroom), false), (.«_agent_backend», (some .primitive), false),
    (.«_env_backend», (some .primitive), false), (.«_core_preprocessors», (some .mushroom), false),
    (.«_agent_preprocessors», (some .mushroom), false), (.«_logger», (some .none), false)]
  post := []
  sets := [.«_critic_fit_params», .«_n_epochs_policy», .«_batch_size», .«_eps_ppo», .«_optimizer», .«_lambda»,
    .«_ent_coeff», .«_V», .«_iter», .«mdp_info», .«_info», .«policy», .«next_action», .«_agent_backend»,
    .«_env_backend», .«_core_preprocessors», .«_agent_preprocessors», .«_logger»]
  reads := [.«_V», .«mdp_info», .«_lambda», .«policy», .«_critic_fit_params», .«_n_epochs_policy», .«_batch_size»,
    .«_optimizer», .«_ent_coeff», .«_eps_ppo», .«_logger», .«_iter», .«next_action», .«_core_preprocessors»,
    .«_agent_preprocessors», .«_agent_backend», .«_env_backend», .«_info»]

/-- mushroom_rl/algorithms/actor_critic/deep_actor_critic/ppo_bptt.py L11-215. -/
def ppo_bptt : Cls where
  name := "PPO_BPTT"
  registered := [(.«_critic_fit_params», (some .pickle), false), (.«_n_epochs_policy», (some .mushroom), false),
    (.«_batch_size», (some .mushroom), false), (.«_eps_ppo», (some .mushroom), false),
    (.«_ent_coeff», (some .mushroom), false), (.«_optimizer», (some .torch), false),
    (.«_lambda», (some .mushroom), false), (.«_V», (some .mushroom), false),
    (.«_iter», (some .primitive), false), (.«_dim_env_state», (some .primitive), false),
    (.«policy», (some .mushroom), false), (.«next_action», (some .none), false),
    (.«mdp_info», (some .mushroom), false), (.«_info», (some .mushroom), false),
    (.«_agent_backend», (some .primitive), false), (.«_env_backend», (some .primitive), false),
    (.«_core_preprocessors», (some .mushroom), false), (.«_agent_preprocessors», (some .mushroom), false),
    (.«_logger», (some .none), false)]
  post := []
  sets := [.«_critic_fit_params», .«_n_epochs_policy», .«_batch_size», .«_eps_ppo», .«_optimizer», .«_lambda»,
    .«_ent_coeff», .«_V», .«_truncation_length», .«_dim_env_state», .«_iter», .«mdp_info», .«_info»,
    .«policy», .«next_action», .«_agent_backend», .«_env_backend», .«_core_preprocessors»,
    .«_agent_preprocessors», .«_logger»]
  reads := [.«_V», .«mdp_info», .«_lambda», .«policy», .«_critic_fit_params», .«_truncation_length»,
    .«_n_epochs_policy», .«_batch_size», .«_optimizer», .«_ent_coeff», .«_eps_ppo», .«next_action»,
    .«_core_preprocessors», .«_agent_preprocessors», .«_agent_backend», .«_env_backend», .«_info»]

/-- mushroom_rl/algorithms/actor_critic/deep_actor_critic/sac.py L18-174. -/
def sACPolicy : Cls where
  name := "SACPolicy"
  registered := [(.«_mu_approximator», (some .mushroom), false), (.«_sigma_approximator», (some .mushroom), false),
    (.«_delta_a», (some .torch), false), (.«_central_a», (some .torch), false),
    (.«_log_std_min», (some .mushroom), false), (.«_log_std_max», (some .mushroom), false),
    (.«_eps_log_prob», (some .primitive), false), (.«policy_state_shape», (some .primitive), false)]
  post := []
  sets := [.«_mu_approximator», .«_sigma_approximator», .«_delta_a», .«_central_a», .«_log_std_min»,
    .«_log_std_max», .«_eps_log_prob», .«policy_state_shape»]
  reads := [.«_central_a», .«_delta_a», .«_eps_log_prob», .«_mu_approximator», .«_sigma_approximator»,
    .«_log_std_min», .«_log_std_max», .«policy_state_shape»]

/-- mushroom_rl/algorithms/actor_critic/deep_actor_critic/sac.py L177-327. -/
def sac : Cls where
  name := "SAC"
  registered := [(.«_critic_fit_params», (some .pickle), false), (.«_batch_size», (some .mushroom), false),
    (.«_warmup_transitions», (some .mushroom), false), (.«_tau», (some .mushroom), false),
    (.«_target_entropy», (some .primitive), false), (.«_replay_memory», (some .mushroom), false),
    (.«_critic_approximator», (some .mushroom), false),
    (.«_target_critic_approximator», (some .mushroom), false),
    (.«_use_log_alpha_loss», (some .primitive), false), (.«_log_alpha», (some .torch), false),
    (.«_alpha_optim», (some .torch), false), (.«_optimizer», (some .torch), false),
    (.«_clipping», (some .torch), false), (.«_clipping_params», (some .pickle), false),
    (.«policy», (some .mushroom), false), (.«next_action», (some .none), false),
    (.«mdp_info», (some .mushroom), false), (.«_info», (some .mushroom), false),
    (.«_agent_backend», (some .primitive), false), (.«_env_backend», (some .primitive), false),
    (.«_core_preprocessors», (some .mushroom), false), (.«_agent_preprocessors», (some .mushroom), false),
    (.«_logger», (some .none), false)]
  post := [.«_parameters»]
  sets := [.«_critic_fit_params», .«_batch_size», .«_warmup_transitions», .«_tau», .«_use_log_alpha_loss»,
    .«_critic_approximator», .«_target_critic_approximator», .«_log_alpha», .«_alpha_optim»,
    .«_replay_memory», .«_target_entropy», .«_parameters», .«_optimizer», .«_clipping», .«_clipping_params»,
    .«mdp_info», .«_info», .«policy», .«next_action», .«_agent_backend», .«_env_backend»,
    .«_core_preprocessors», .«_agent_preprocessors», .«_logger»]
  reads := [.«_replay_memory», .«_critic_approximator», .«_target_critic_approximator», .«_batch_size»,
    .«_warmup_transitions», .«_critic_fit_params», .«policy», .«mdp_info», .«_use_log_alpha_loss»,
    .«_alpha_optim», .«_log_alpha», .«_target_entropy», .«_optimizer», .«_clipping», .«_parameters»,
    .«_clipping_params», .«_tau», .«next_action», .«_core_preprocessors», .«_agent_preprocessors»,
    .«_agent_backend», .«_env_backend», .«_info»]

/-- mushroom_rl/algorithms/actor_critic/deep_actor_critic/td3.py L8-94. -/
def td3 : Cls where
  name := "TD3"
  registered := [(.«_noise_std», (some .mushroom), false), (.«_noise_clip», (some .mushroom), false),
    (.«_critic_fit_params», (some .pickle), false), (.«_critic_predict_params», (some .pickle), false),
    (.«_actor_predict_params», (some .pickle), false), (.«_batch_size», (some .mushroom), false),
    (.«_tau», (some .mushroom), false), (.«_policy_delay», (some .mushroom), false),
    (.«_fit_count», (some .primitive), false), (.«_replay_memory», (some .mushroom), false),
    (.«_critic_approximator», (some .mushroom), false),
    (.«_target_critic_approximator», (some .mushroom), false),
    (.«_target_actor_approximator», (some .mushroom), false), (.«_optimizer», (some .torch), false),
    (.«_clipping», (some .torch), false), (.«_clipping_params», (some .pickle), false),
    (.«policy», (some .mushroom), false), (.«next_action», (some .none), false),
    (.«mdp_info», (some .mushroom), false), (.«_info», (some .mushroom), false),
    (.«_agent_backend», (some .primitive), false), (.«_env_backend», (some .primitive), false),
    (.«_core_preprocessors», (some .mushroom), false), (.«_agent_preprocessors», (some .mushroom), false),
    (.«_logger», (some .none), false)]
  post := [.«_actor_approximator», .«_parameters»]
  sets := [.«_noise_std», .«_noise_clip», .«_critic_fit_params», .«_actor_predict_params»,
    .«_critic_predict_params», .«_critic_approximator», .«_target_critic_approximator»,
    .«_actor_approximator», .«_target_actor_approximator», .«_batch_size», .«_tau», .«_policy_delay»,
    .«_fit_count», .«_replay_memory», .«_parameters», .«_optimizer», .«_clipping», .«_clipping_params»,
    .«mdp_info», .«_info», .«policy», .«next_action», .«_agent_backend», .«_env_backend»,
    .«_core_preprocessors», .«_agent_preprocessors», .«_logger»]
  reads := [.«_actor_approximator», .«_critic_approximator», .«_actor_predict_params», .«_critic_predict_params»,
    .«_target_actor_approximator», .«mdp_info», .«_target_critic_approximator», .«_noise_std»,
    .«_noise_clip», .«_replay_memory», .«_batch_size», .«_critic_fit_params», .«_fit_count»,
    .«_policy_delay», .«_optimizer», .«_clipping», .«_parameters», .«_clipping_params», .«_tau»,
    .«next_action», .«policy», .«_core_preprocessors», .«_agent_preprocessors», .«_agent_backend»,
    .«_env_backend», .«_info»]

/-- mushroom_rl/algorithms/actor_critic/deep_actor_critic/trpo.py L16-211. -/
def trpo : Cls where
  name := "TRPO"
  registered := [(.«_critic_fit_params», (some .pickle), false), (.«_n_epochs_line_search», (some .mushroom), false),
    (.«_n_epochs_cg», (some .mushroom), false), (.«_cg_damping», (some .mushroom), false),
    (.«_cg_residual_tol», (some .mushroom), false), (.«_max_kl», (some .mushroom), false),
    (.«_ent_coeff», (some .mushroom), false), (.«_lambda», (some .mushroom), false),
    (.«_V», (some .mushroom), false), (.«_old_policy», (some .mushroom), false),
    (.«_iter», (some .primitive), false), (.«policy», (some .mushroom), false),
    (.«next_action», (some .none), false), (.«mdp_info», (some .mushroom), false),
    (.«_info», (some .mushroom), false), (.«_agent_backend», (some .primitive), false),
    (.«_env_backend», (some .primitive), false), (.«_core_preprocessors», (some .mushroom), false),
    (.«_agent_preprocessors», (some .mushroom), false), (.«_logger», (some .none), false)]
  post := []
  sets := [.«_critic_fit_params», .«_n_epochs_line_search», .«_n_epochs_cg», .«_cg_damping», .«_cg_residual_tol»,
    .«_max_kl», .«_ent_coeff», .«_lambda», .«_V», .«_iter», .«_old_policy», .«mdp_info», .«_info», .«policy»,
    .«next_action», .«_agent_backend», .«_env_backend», .«_core_preprocessors», .«_agent_preprocessors»,
    .«_logger»]
  reads := [.«_V», .«policy», .«mdp_info», .«_lambda», .«_old_policy», .«_critic_fit_params», .«_cg_damping»,
    .«_n_epochs_cg», .«_cg_residual_tol», .«_n_epochs_line_search», .«_max_kl», .«_ent_coeff», .«_logger»,
    .«_iter», .«next_action», .«_core_preprocessors», .«_agent_preprocessors», .«_agent_backend»,
    .«_env_backend», .«_info»]

/-- mushroom_rl/algorithms/policy_search/black_box_optimization/black_box_optimization.py L9-118. -/
def blackBoxOptimization : Cls where
  name := "BlackBoxOptimization"
  registered := [(.«distribution», (some .mushroom), false), (.«_context_builder», (some .mushroom), false),
    (.«_deterministic», (some .primitive), false), (.«policy», (some .mushroom), false),
    (.«next_action», (some .none), false), (.«mdp_info», (some .mushroom), false),
    (.«_info», (some .mushroom), false), (.«_agent_backend», (some .primitive), false),
    (.«_env_backend», (some .primitive), false), (.«_core_preprocessors», (some .mushroom), false),
    (.«_agent_preprocessors», (some .mushroom), false), (.«_logger», (some .none), false)]
  post := []
  sets := [.«distribution», .«_context_builder», .«_deterministic», .«mdp_info», .«_info», .«policy»,
    .«next_action», .«_agent_backend», .«_env_backend», .«_core_preprocessors», .«_agent_preprocessors»,
    .«_logger»]
  reads := [.«_deterministic», .«policy», .«_context_builder», .«distribution», .«_agent_backend», .«next_action»,
    .«_core_preprocessors», .«_agent_preprocessors», .«_env_backend», .«_info»]

/-- mushroom_rl/algorithms/policy_search/black_box_optimization/constrained_reps.py L7-79. -/
def constrainedREPS : Cls where
  name := "ConstrainedREPS"
  registered := [(.«_eps», (some .mushroom), false), (.«_kappa», (some .mushroom), false),
    (.«distribution», (some .mushroom), false), (.«_context_builder», (some .mushroom), false),
    (.«_deterministic», (some .primitive), false), (.«policy», (some .mushroom), false),
    (.«next_action», (some .none), false), (.«mdp_info», (some .mushroom), false),
    (.«_info», (some .mushroom), false), (.«_agent_backend», (some .primitive), false),
    (.«_env_backend», (some .primitive), false), (.«_core_preprocessors», (some .mushroom), false),
    (.«_agent_preprocessors», (some .mushroom), false), (.«_logger», (some .none), false)]
  post := []
  sets := [.«_eps», .«_kappa», .«distribution», .«_context_builder», .«_deterministic», .«mdp_info», .«_info»,
    .«policy», .«next_action», .«_agent_backend», .«_env_backend», .«_core_preprocessors»,
    .«_agent_preprocessors», .«_logger»]
  reads := [.«distribution», .«_eps», .«_kappa», .«_deterministic», .«policy», .«_context_builder»,
    .«_agent_backend», .«next_action», .«_core_preprocessors», .«_agent_preprocessors», .«_env_backend»,
    .«_info»]

/-- mushroom_rl/algorithms/policy_search/black_box_optimization/context_builder.py L4-17. -/
def contextBuilder : Cls where
  name := "ContextBuilder"
  registered := [(.«_context_shape», (some .primitive), false)]
  post := []
  sets := [.«_context_shape»]
  reads := [.«_context_shape»]

/-- mushroom_rl/algorithms/policy_search/black_box_optimization/eppo.py L8-76. -/
def ePPO : Cls where
  name := "ePPO"
  registered := [(.«_optimizer», (some .torch), false), (.«_n_epochs_policy», (some .mushroom), false),
    (.«_batch_size», (some .mushroom), false), (.«_eps_ppo», (some .mushroom), false),
    (.«_ent_coeff», (some .mushroom), false), (.«distribution», (some .mushroom), false),
    (.«_context_builder», (some .mushroom), false), (.«_deterministic», (some .primitive), false),
    (.«policy», (some .mushroom), false), (.«next_action», (some .none), false),
    (.«mdp_info», (some .mushroom), false), (.«_info», (some .mushroom), false),
    (.«_agent_backend», (some .primitive), false), (.«_env_backend», (some .primitive), false),
    (.«_core_preprocessors», (some .mushroom), false), (.«_agent_preprocessors», (some .mushroom), false),
    (.«_logger», (some .none), false)]
  post := []
  sets := [.«_optimizer», .«_n_epochs_policy», .«_batch_size», .«_eps_ppo», .«_ent_coeff», .«distribution»,
    .«_context_builder», .«_deterministic», .«mdp_info», .«_info», .«policy», .«next_action»,
    .«_agent_backend», .«_env_backend», .«_core_preprocessors», .«_agent_preprocessors», .«_logger»]
  reads := [.«distribution», .«_n_epochs_policy», .«_batch_size», .«_optimizer», .«_ent_coeff», .«_eps_ppo»,
    .«_deterministic», .«policy», .«_context_builder», .«_agent_backend», .«next_action»,
    .«_core_preprocessors», .«_agent_preprocessors», .«_env_backend», .«_info»]

/-- mushroom_rl/algorithms/policy_search/black_box_optimization/more.py L13-138. -/
def more : Cls where
  name := "MORE"
  registered := [(.«eps», (some .primitive), false), (.«h0», (some .primitive), false),
    (.«kappa», (some .primitive), false), (.«distribution», (some .mushroom), false),
    (.«_context_builder», (some .mushroom), false), (.«_deterministic», (some .primitive), false),
    (.«policy», (some .mushroom), false), (.«next_action», (some .none), false),
    (.«mdp_info», (some .mushroom), false), (.«_info», (some .mushroom), false),
    (.«_agent_backend», (some .primitive), false), (.«_env_backend», (some .primitive), false),
    (.«_core_preprocessors», (some .mushroom), false), (.«_agent_preprocessors», (some .mushroom), false),
    (.«_logger», (some .none), false)]
  post := []
  sets := [.«eps», .«h0», .«kappa», .«phi_quadratic_», .«regressor_quadratic», .«phi_linear_», .«regressor_linear»,
    .«distribution», .«_context_builder», .«_deterministic», .«mdp_info», .«_info», .«policy»,
    .«next_action», .«_agent_backend», .«_env_backend», .«_core_preprocessors», .«_agent_preprocessors»,
    .«_logger»]
  reads := [.«h0», .«distribution», .«kappa», .«eps», .«phi_quadratic_», .«phi_linear_», .«regressor_quadratic»,
    .«regressor_linear», .«_deterministic», .«policy», .«_context_builder», .«_agent_backend»,
    .«next_action», .«_core_preprocessors», .«_agent_preprocessors», .«_env_backend», .«_info»]

/-- mushroom_rl/algorithms/policy_search/black_box_optimization/pgpe.py L6-60. -/
def pgpe : Cls where
  name := "PGPE"
  registered := [(.«optimizer», (some .mushroom), false), (.«distribution», (some .mushroom), false),
    (.«_context_builder», (some .mushroom), false), (.«_deterministic», (some .primitive), false),
    (.«policy», (some .mushroom), false), (.«next_action», (some .none), false),
    (.«mdp_info», (some .mushroom), false), (.«_info», (some .mushroom), false),
    (.«_agent_backend», (some .primitive), false), (.«_env_backend», (some .primitive), false),
    (.«_core_preprocessors», (some .mushroom), false), (.«_agent_preprocessors», (some .mushroom), false),
    (.«_logger», (some .none), false)]
  post := []
  sets := [.«optimizer», .«distribution», .«_context_builder», .«_deterministic», .«mdp_info», .«_info», .«policy»,
    .«next_action», .«_agent_backend», .«_env_backend», .«_core_preprocessors», .«_agent_preprocessors»,
    .«_logger»]
  reads := [.«optimizer», .«distribution», .«_deterministic», .«policy», .«_context_builder», .«_agent_backend»,
    .«next_action», .«_core_preprocessors», .«_agent_preprocessors», .«_env_backend», .«_info»]

/-- mushroom_rl/algorithms/policy_search/black_box_optimization/reps.py L9-76. -/
def reps : Cls where
  name := "REPS"
  registered := [(.«_eps», (some .mushroom), false), (.«distribution», (some .mushroom), false),
    (.«_context_builder», (some .mushroom), false), (.«_deterministic», (some .primitive), false),
    (.«policy», (some .mushroom), false), (.«next_action», (some .none), false),
    (.«mdp_info», (some .mushroom), false), (.«_info», (some .mushroom), false),
    (.«_agent_backend», (some .primitive), false), (.«_env_backend», (some .primitive), false),
    (.«_core_preprocessors», (some .mushroom), false), (.«_agent_preprocessors», (some .mushroom), false),
    (.«_logger», (some .none), false)]
  post := []
  sets := [.«_eps», .«distribution», .«_context_builder», .«_deterministic», .«mdp_info», .«_info», .«policy»,
    .«next_action», .«_agent_backend», .«_env_backend», .«_core_preprocessors», .«_agent_preprocessors»,
    .«_logger»]
  reads := [.«distribution», .«_eps», .«_deterministic», .«policy», .«_context_builder», .«_agent_backend»,
    .«next_action», .«_core_preprocessors», .«_agent_preprocessors», .«_env_backend», .«_info»]

/-- mushroom_rl/algorithms/policy_search/black_box_optimization/rwr.py L7-36. -/
def rwr : Cls where
  name := "RWR"
  registered := [(.«_beta», (some .mushroom), false), (.«distribution», (some .mushroom), false),
    (.«_context_builder», (some .mushroom), false), (.«_deterministic», (some .primitive), false),
    (.«policy», (some .mushroom), false), (.«next_action», (some .none), false),
    (.«mdp_info», (some .mushroom), false), (.«_info», (some .mushroom), false),
    (.«_agent_backend», (some .primitive), false), (.«_env_backend», (some .primitive), false),
    (.«_core_preprocessors», (some .mushroom), false), (.«_agent_preprocessors», (some .mushroom), false),
    (.«_logger», (some .none), false)]
  post := []
  sets := [.«_beta», .«distribution», .«_context_builder», .«_deterministic», .«mdp_info», .«_info», .«policy»,
    .«next_action», .«_agent_backend», .«_env_backend», .«_core_preprocessors», .«_agent_preprocessors»,
    .«_logger»]
  reads := [.«distribution», .«_beta», .«_deterministic», .«policy», .«_context_builder», .«_agent_backend»,
    .«next_action», .«_core_preprocessors», .«_agent_preprocessors», .«_env_backend», .«_info»]

/-- mushroom_rl/algorithms/policy_search/policy_gradient/enac.py L6-61. -/
def eNAC : Cls where
  name := "eNAC"
  registered := [(.«phi_c», (some .pickle), false), (.«sum_grad_log», (some .numpy), false),
    (.«psi_ext», (some .pickle), false), (.«sum_grad_log_list», (some .pickle), false),
    (.«optimizer», (some .mushroom), false), (.«df», (some .numpy), false),
    (.«J_episode», (some .numpy), false), (.«policy», (some .mushroom), false),
    (.«next_action», (some .none), false), (.«mdp_info», (some .mushroom), false),
    (.«_info», (some .mushroom), false), (.«_agent_backend», (some .primitive), false),
    (.«_env_backend», (some .primitive), false), (.«_core_preprocessors», (some .mushroom), false),
    (.«_agent_preprocessors», (some .mushroom), false), (.«_logger», (some .none), false)]
  post := []
  sets := [.«phi_c», .«sum_grad_log», .«psi_ext», .«sum_grad_log_list», .«optimizer», .«df», .«J_episode»,
    .«mdp_info», .«_info», .«policy», .«next_action», .«_agent_backend», .«_env_backend»,
    .«_core_preprocessors», .«_agent_preprocessors», .«_logger»]
  reads := [.«sum_grad_log_list», .«policy», .«df», .«psi_ext», .«phi_c», .«sum_grad_log», .«mdp_info», .«J_episode»,
    .«optimizer», .«next_action», .«_core_preprocessors», .«_agent_preprocessors», .«_agent_backend»,
    .«_env_backend», .«_info»]

/-- mushroom_rl/algorithms/policy_search/policy_gradient/gpomdp.py L6-102. -/
def gpomdp : Cls where
  name := "GPOMDP"
  registered := [(.«sum_d_log_pi», (some .numpy), false), (.«list_sum_d_log_pi», (some .pickle), false),
    (.«list_sum_d_log_pi_ep», (some .pickle), false), (.«list_reward», (some .pickle), false),
    (.«list_reward_ep», (some .pickle), false), (.«baseline_num», (some .pickle), false),
    (.«baseline_den», (some .pickle), false), (.«step_count», (some .numpy), false),
    (.«optimizer», (some .mushroom), false), (.«df», (some .numpy), false),
    (.«J_episode», (some .numpy), false), (.«policy», (some .mushroom), false),
    (.«next_action», (some .none), false), (.«mdp_info», (some .mushroom), false),
    (.«_info», (some .mushroom), false), (.«_agent_backend», (some .primitive), false),
    (.«_env_backend», (some .primitive), false), (.«_core_preprocessors», (some .mushroom), false),
    (.«_agent_preprocessors», (some .mushroom), false), (.«_logger», (some .none), false)]
  post := []
  sets := [.«sum_d_log_pi», .«list_sum_d_log_pi», .«list_sum_d_log_pi_ep», .«list_reward», .«list_reward_ep»,
    .«baseline_num», .«baseline_den», .«step_count», .«optimizer», .«df», .«J_episode», .«mdp_info»,
    .«_info», .«policy», .«next_action», .«_agent_backend», .«_env_backend», .«_core_preprocessors»,
    .«_agent_preprocessors», .«_logger»]
  reads := [.«list_sum_d_log_pi_ep», .«list_reward_ep», .«policy», .«baseline_num», .«baseline_den», .«df»,
    .«sum_d_log_pi», .«step_count», .«list_reward», .«list_sum_d_log_pi», .«mdp_info», .«J_episode»,
    .«optimizer», .«next_action», .«_core_preprocessors», .«_agent_preprocessors», .«_agent_backend»,
    .«_env_backend», .«_info»]

/-- mushroom_rl/algorithms/policy_search/policy_gradient/policy_gradient.py L6-136. -/
def policyGradient : Cls where
  name := "PolicyGradient"
  registered := [(.«optimizer», (some .mushroom), false), (.«df», (some .numpy), false),
    (.«J_episode», (some .numpy), false), (.«policy», (some .mushroom), false),
    (.«next_action», (some .none), false), (.«mdp_info», (some .mushroom), false),
    (.«_info», (some .mushroom), false), (.«_agent_backend», (some .primitive), false),
    (.«_env_backend», (some .primitive), false), (.«_core_preprocessors», (some .mushroom), false),
    (.«_agent_preprocessors», (some .mushroom), false), (.«_logger», (some .none), false)]
  post := []
  sets := [.«optimizer», .«df», .«J_episode», .«mdp_info», .«_info», .«policy», .«next_action», .«_agent_backend»,
    .«_env_backend», .«_core_preprocessors», .«_agent_preprocessors», .«_logger»]
  reads := [.«df», .«mdp_info», .«J_episode», .«optimizer», .«policy», .«next_action», .«_core_preprocessors»,
    .«_agent_preprocessors», .«_agent_backend», .«_env_backend», .«_info»]

/-- mushroom_rl/algorithms/policy_search/policy_gradient/reinforce.py L6-56. -/
def reinforce : Cls where
  name := "REINFORCE"
  registered := [(.«sum_d_log_pi», (some .numpy), false), (.«list_sum_d_log_pi», (some .pickle), false),
    (.«baseline_num», (some .pickle), false), (.«baseline_den», (some .pickle), false),
    (.«optimizer», (some .mushroom), false), (.«df», (some .numpy), false),
    (.«J_episode», (some .numpy), false), (.«policy», (some .mushroom), false),
    (.«next_action», (some .none), false), (.«mdp_info», (some .mushroom), false),
    (.«_info», (some .mushroom), false), (.«_agent_backend», (some .primitive), false),
    (.«_env_backend», (some .primitive), false), (.«_core_preprocessors», (some .mushroom), false),
    (.«_agent_preprocessors», (some .mushroom), false), (.«_logger», (some .none), false)]
  post := []
  sets := [.«sum_d_log_pi», .«list_sum_d_log_pi», .«baseline_num», .«baseline_den», .«optimizer», .«df»,
    .«J_episode», .«mdp_info», .«_info», .«policy», .«next_action», .«_agent_backend», .«_env_backend»,
    .«_core_preprocessors», .«_agent_preprocessors», .«_logger»]
  reads := [.«baseline_num», .«baseline_den», .«list_sum_d_log_pi», .«policy», .«sum_d_log_pi», .«J_episode», .«df»,
    .«mdp_info», .«optimizer», .«next_action», .«_core_preprocessors», .«_agent_preprocessors»,
    .«_agent_backend», .«_env_backend», .«_info»]

/-- mushroom_rl/algorithms/value/batch_td/batch_td.py L5-38. -/
def batchTD : Cls where
  name := "BatchTD"
  registered := [(.«approximator», (some .mushroom), false), (.«_fit_params», (some .pickle), false),
    (.«policy», (some .mushroom), false), (.«next_action», (some .none), false),
    (.«mdp_info», (some .mushroom), false), (.«_info», (some .mushroom), false),
    (.«_agent_backend», (some .primitive), false), (.«_env_backend», (some .primitive), false),
    (.«_core_preprocessors», (some .mushroom), false), (.«_agent_preprocessors», (some .mushroom), false),
    (.«_logger», (some .none), false)]
  post := []
  sets := [.«_fit_params», .«approximator», .«mdp_info», .«_info», .«policy», .«next_action», .«_agent_backend»,
    .«_env_backend», .«_core_preprocessors», .«_agent_preprocessors», .«_logger»]
  reads := [.«next_action», .«policy», .«_core_preprocessors», .«_agent_preprocessors», .«_agent_backend»,
    .«_env_backend», .«_info»]

/-- mushroom_rl/algorithms/value/batch_td/boosted_fqi.py L7-52. -/
def boostedFQI : Cls where
  name := "BoostedFQI"
  registered := [(.«_n_iterations», (some .mushroom), false), (.«_quiet», (some .primitive), false),
    (.«_prediction», (some .primitive), false), (.«_next_q», (some .numpy), false),
    (.«_idx», (some .primitive), false), (.«_target», (some .pickle), false),
    (.«approximator», (some .mushroom), false), (.«_fit_params», (some .pickle), false),
    (.«policy», (some .mushroom), false), (.«next_action», (some .none), false),
    (.«mdp_info», (some .mushroom), false), (.«_info», (some .mushroom), false),
    (.«_agent_backend», (some .primitive), false), (.«_env_backend», (some .primitive), false),
    (.«_core_preprocessors», (some .mushroom), false), (.«_agent_preprocessors», (some .mushroom), false),
    (.«_logger», (some .none), false)]
  post := []
  sets := [.«_prediction», .«_next_q», .«_idx», .«_n_iterations», .«_quiet», .«_target», .«_fit_params»,
    .«approximator», .«mdp_info», .«_info», .«policy», .«next_action», .«_agent_backend», .«_env_backend»,
    .«_core_preprocessors», .«_agent_preprocessors», .«_logger»]
  reads := [.«_prediction», .«_target», .«_n_iterations», .«_quiet», .«_next_q», .«approximator», .«_idx»,
    .«_fit_params», .«mdp_info», .«next_action», .«policy», .«_core_preprocessors», .«_agent_preprocessors»,
    .«_agent_backend», .«_env_backend», .«_info»]

/-- mushroom_rl/algorithms/value/batch_td/double_fqi.py L7-53. -/
def doubleFQI : Cls where
  name := "DoubleFQI"
  registered := [(.«_n_iterations», (some .mushroom), false), (.«_quiet», (some .primitive), false),
    (.«_target», (some .pickle), false), (.«approximator», (some .mushroom), false),
    (.«_fit_params», (some .pickle), false), (.«policy», (some .mushroom), false),
    (.«next_action», (some .none), false), (.«mdp_info», (some .mushroom), false),
    (.«_info», (some .mushroom), false), (.«_agent_backend», (some .primitive), false),
    (.«_env_backend», (some .primitive), false), (.«_core_preprocessors», (some .mushroom), false),
    (.«_agent_preprocessors», (some .mushroom), false), (.«_logger», (some .none), false)]
  post := []
  sets := [.«_n_iterations», .«_quiet», .«_target», .«_fit_params», .«approximator», .«mdp_info», .«_info»,
    .«policy», .«next_action», .«_agent_backend», .«_env_backend», .«_core_preprocessors»,
    .«_agent_preprocessors», .«_logger»]
  reads := [.«_n_iterations», .«_quiet», .«_target», .«approximator», .«_fit_params», .«mdp_info», .«next_action»,
    .«policy», .«_core_preprocessors», .«_agent_preprocessors», .«_agent_backend», .«_env_backend», .«_info»]

/-- mushroom_rl/algorithms/value/batch_td/fqi.py L8-49. -/
def fqi : Cls where
  name := "FQI"
  registered := [(.«_n_iterations», (some .mushroom), false), (.«_quiet», (some .primitive), false),
    (.«_target», (some .pickle), false), (.«approximator», (some .mushroom), false),
    (.«_fit_params», (some .pickle), false), (.«policy», (some .mushroom), false),
    (.«next_action», (some .none), false), (.«mdp_info», (some .mushroom), false),
    (.«_info», (some .mushroom), false), (.«_agent_backend», (some .primitive), false),
    (.«_env_backend», (some .primitive), false), (.«_core_preprocessors», (some .mushroom), false),
    (.«_agent_preprocessors», (some .mushroom), false), (.«_logger», (some .none), false)]
  post := []
  sets := [.«_n_iterations», .«_quiet», .«_target», .«_fit_params», .«approximator», .«mdp_info», .«_info»,
    .«policy», .«next_action», .«_agent_backend», .«_env_backend», .«_core_preprocessors»,
    .«_agent_preprocessors», .«_logger»]
  reads := [.«_n_iterations», .«_quiet», .«_target», .«approximator», .«_fit_params», .«mdp_info», .«next_action»,
    .«policy», .«_core_preprocessors», .«_agent_preprocessors», .«_agent_backend», .«_env_backend», .«_info»]

/-- mushroom_rl/algorithms/value/batch_td/lspi.py L9-57. -/
def lspi : Cls where
  name := "LSPI"
  registered := [(.«_epsilon», (some .mushroom), false), (.«approximator», (some .mushroom), false),
    (.«_fit_params», (some .pickle), false), (.«policy», (some .mushroom), false),
    (.«next_action», (some .none), false), (.«mdp_info», (some .mushroom), false),
    (.«_info», (some .mushroom), false), (.«_agent_backend», (some .primitive), false),
    (.«_env_backend», (some .primitive), false), (.«_core_preprocessors», (some .mushroom), false),
    (.«_agent_preprocessors», (some .mushroom), false), (.«_logger», (some .none), false)]
  post := []
  sets := [.«_epsilon», .«_fit_params», .«approximator», .«mdp_info», .«_info», .«policy», .«next_action»,
    .«_agent_backend», .«_env_backend», .«_core_preprocessors», .«_agent_preprocessors», .«_logger»]
  reads := [.«_epsilon», .«approximator», .«mdp_info», .«next_action», .«policy», .«_core_preprocessors»,
    .«_agent_preprocessors», .«_agent_backend», .«_env_backend», .«_info»]

/-- mushroom_rl/algorithms/value/dqn/abstract_dqn.py L12-165. -/
def abstractDQN : Cls where
  name := "AbstractDQN"
  registered := [(.«_fit_params», (some .pickle), false), (.«_predict_params», (some .pickle), false),
    (.«_batch_size», (some .mushroom), false), (.«_n_approximators», (some .primitive), false),
    (.«_clip_reward», (some .primitive), false), (.«_target_update_frequency», (some .primitive), false),
    (.«_replay_memory», (some .mushroom), false), (.«_n_updates», (some .primitive), false),
    (.«approximator», (some .mushroom), false), (.«target_approximator», (some .mushroom), false),
    (.«policy», (some .mushroom), false), (.«next_action», (some .none), false),
    (.«mdp_info», (some .mushroom), false), (.«_info», (some .mushroom), false),
    (.«_agent_backend», (some .primitive), false), (.«_env_backend», (some .primitive), false),
    (.«_core_preprocessors», (some .mushroom), false), (.«_agent_preprocessors», (some .mushroom), false),
    (.«_logger», (some .none), false)]
  post := [.«_fit»]
  sets := [.«_fit_params», .«_predict_params», .«_batch_size», .«_clip_reward», .«_target_update_frequency»,
    .«_n_updates», .«_replay_memory», .«_fit», .«mdp_info», .«_info», .«policy», .«next_action»,
    .«_agent_backend», .«_env_backend», .«_core_preprocessors», .«_agent_preprocessors», .«_logger»,
    .«approximator», .«target_approximator»]
  reads := [.«_fit», .«_n_updates», .«_target_update_frequency», .«_replay_memory», .«_clip_reward», .«_batch_size»,
    .«approximator», .«_fit_params», .«mdp_info», .«_predict_params», .«target_approximator», .«next_action»,
    .«policy», .«_core_preprocessors», .«_agent_preprocessors», .«_agent_backend», .«_env_backend», .«_info»]

/-- mushroom_rl/algorithms/value/dqn/averaged_dqn.py L7-62. -/
def averagedDQN : Cls where
  name := "AveragedDQN"
  registered := [(.«_n_fitted_target_models», (some .primitive), false), (.«_fit_params», (some .pickle), false),
    (.«_predict_params», (some .pickle), false), (.«_batch_size», (some .mushroom), false),
    (.«_n_approximators», (some .primitive), false), (.«_clip_reward», (some .primitive), false),
    (.«_target_update_frequency», (some .primitive), false), (.«_replay_memory», (some .mushroom), false),
    (.«_n_updates», (some .primitive), false), (.«approximator», (some .mushroom), false),
    (.«target_approximator», (some .mushroom), false), (.«policy», (some .mushroom), false),
    (.«next_action», (some .none), false), (.«mdp_info», (some .mushroom), false),
    (.«_info», (some .mushroom), false), (.«_agent_backend», (some .primitive), false),
    (.«_env_backend», (some .primitive), false), (.«_core_preprocessors», (some .mushroom), false),
    (.«_agent_preprocessors», (some .mushroom), false), (.«_logger», (some .none), false)]
  post := [.«_fit»]
  sets := [.«_n_approximators», .«_n_fitted_target_models», .«_fit_params», .«_predict_params», .«_batch_size»,
    .«_clip_reward», .«_target_update_frequency», .«_n_updates», .«_replay_memory», .«_fit», .«mdp_info»,
    .«_info», .«policy», .«next_action», .«_agent_backend», .«_env_backend», .«_core_preprocessors»,
    .«_agent_preprocessors», .«_logger», .«approximator», .«target_approximator»]
  reads := [.«_n_approximators», .«_n_fitted_target_models», .«_n_updates», .«_target_update_frequency»,
    .«target_approximator», .«approximator», .«_predict_params», .«_fit», .«_replay_memory», .«_clip_reward»,
    .«_batch_size», .«_fit_params», .«mdp_info», .«next_action», .«policy», .«_core_preprocessors»,
    .«_agent_preprocessors», .«_agent_backend», .«_env_backend», .«_info»]

/-- mushroom_rl/algorithms/value/dqn/categorical_dqn.py L76-156. -/
def categoricalDQN : Cls where
  name := "CategoricalDQN"
  registered := [(.«_n_atoms», (some .primitive), false), (.«_v_min», (some .primitive), false),
    (.«_v_max», (some .primitive), false), (.«_delta», (some .primitive), false),
    (.«_a_values», (some .numpy), false), (.«_fit_params», (some .pickle), false),
    (.«_predict_params», (some .pickle), false), (.«_batch_size», (some .mushroom), false),
    (.«_n_approximators», (some .primitive), false), (.«_clip_reward», (some .primitive), false),
    (.«_target_update_frequency», (some .primitive), false), (.«_replay_memory», (some .mushroom), false),
    (.«_n_updates», (some .primitive), false), (.«approximator», (some .mushroom), false),
    (.«target_approximator», (some .mushroom), false), (.«policy», (some .mushroom), false),
    (.«next_action», (some .none), false), (.«mdp_info», (some .mushroom), false),
    (.«_info», (some .mushroom), false), (.«_agent_backend», (some .primitive), false),
    (.«_env_backend», (some .primitive), false), (.«_core_preprocessors», (some .mushroom), false),
    (.«_agent_preprocessors», (some .mushroom), false), (.«_logger», (some .none), false)]
  post := [.«_fit»]
  sets := [.«_n_atoms», .«_v_min», .«_v_max», .«_delta», .«_a_values», .«_fit_params», .«_predict_params»,
    .«_batch_size», .«_clip_reward», .«_target_update_frequency», .«_n_updates», .«_replay_memory», .«_fit»,
    .«mdp_info», .«_info», .«policy», .«next_action», .«_agent_backend», .«_env_backend»,
    .«_core_preprocessors», .«_agent_preprocessors», .«_logger», .«approximator», .«target_approximator»]
  reads := [.«_replay_memory», .«_clip_reward», .«_v_min», .«_v_max», .«_delta», .«_n_atoms», .«_batch_size»,
    .«target_approximator», .«_predict_params», .«mdp_info», .«approximator», .«_fit_params», .«_n_updates»,
    .«_target_update_frequency», .«_a_values», .«next_action», .«policy», .«_core_preprocessors»,
    .«_agent_preprocessors», .«_agent_backend», .«_env_backend», .«_info»]

/-- mushroom_rl/algorithms/value/dqn/double_dqn.py L6-21. -/
def doubleDQN : Cls where
  name := "DoubleDQN"
  registered := [(.«_fit_params», (some .pickle), false), (.«_predict_params», (some .pickle), false),
    (.«_batch_size», (some .mushroom), false), (.«_n_approximators», (some .primitive), false),
    (.«_clip_reward», (some .primitive), false), (.«_target_update_frequency», (some .primitive), false),
    (.«_replay_memory», (some .mushroom), false), (.«_n_updates», (some .primitive), false),
    (.«approximator», (some .mushroom), false), (.«target_approximator», (some .mushroom), false),
    (.«policy», (some .mushroom), false), (.«next_action», (some .none), false),
    (.«mdp_info», (some .mushroom), false), (.«_info», (some .mushroom), false),
    (.«_agent_backend», (some .primitive), false), (.«_env_backend», (some .primitive), false),
    (.«_core_preprocessors», (some .mushroom), false), (.«_agent_preprocessors», (some .mushroom), false),
    (.«_logger», (some .none), false)]
  post := [.«_fit»]
  sets := [.«_fit_params», .«_predict_params», .«_batch_size», .«_clip_reward», .«_target_update_frequency»,
    .«_n_updates», .«_replay_memory», .«_fit», .«mdp_info», .«_info», .«policy», .«next_action»,
    .«_agent_backend», .«_env_backend», .«_core_preprocessors», .«_agent_preprocessors», .«_logger»,
    .«approximator», .«target_approximator»]
  reads := [.«approximator», .«_predict_params», .«target_approximator», .«_fit», .«_n_updates»,
    .«_target_update_frequency», .«_replay_memory», .«_clip_reward», .«_batch_size», .«_fit_params»,
    .«mdp_info», .«next_action», .«policy», .«_core_preprocessors», .«_agent_preprocessors»,
    .«_agent_backend», .«_env_backend», .«_info»]

/-- mushroom_rl/algorithms/value/dqn/dqn.py L4-16. -/
def dqn : Cls where
  name := "DQN"
  registered := [(.«_fit_params», (some .pickle), false), (.«_predict_params», (some .pickle), false),
    (.«_batch_size», (some .mushroom), false), (.«_n_approximators», (some .primitive), false),
    (.«_clip_reward», (some .primitive), false), (.«_target_update_frequency», (some .primitive), false),
    (.«_replay_memory», (some .mushroom), false), (.«_n_updates», (some .primitive), false),
    (.«approximator», (some .mushroom), false), (.«target_approximator», (some .mushroom), false),
    (.«policy», (some .mushroom), false), (.«next_action», (some .none), false),
    (.«mdp_info», (some .mushroom), false), (.«_info», (some .mushroom), false),
    (.«_agent_backend», (some .primitive), false), (.«_env_backend», (some .primitive), false),
    (.«_core_preprocessors», (some .mushroom), false), (.«_agent_preprocessors», (some .mushroom), false),
    (.«_logger», (some .none), false)]
  post := [.«_fit»]
  sets := [.«_fit_params», .«_predict_params», .«_batch_size», .«_clip_reward», .«_target_update_frequency»,
    .«_n_updates», .«_replay_memory», .«_fit», .«mdp_info», .«_info», .«policy», .«next_action»,
    .«_agent_backend», .«_env_backend», .«_core_preprocessors», .«_agent_preprocessors», .«_logger»,
    .«approximator», .«target_approximator»]
  reads := [.«target_approximator», .«_predict_params», .«_fit», .«_n_updates», .«_target_update_frequency»,
    .«_replay_memory», .«_clip_reward», .«_batch_size», .«approximator», .«_fit_params», .«mdp_info»,
    .«next_action», .«policy», .«_core_preprocessors», .«_agent_preprocessors», .«_agent_backend»,
    .«_env_backend», .«_info»]

/-- mushroom_rl/algorithms/value/dqn/dueling_dqn.py L49-69. -/
def duelingDQN : Cls where
  name := "DuelingDQN"
  registered := [(.«_fit_params», (some .pickle), false), (.«_predict_params», (some .pickle), false),
    (.«_batch_size», (some .mushroom), false), (.«_n_approximators», (some .primitive), false),
    (.«_clip_reward», (some .primitive), false), (.«_target_update_frequency», (some .primitive), false),
    (.«_replay_memory», (some .mushroom), false), (.«_n_updates», (some .primitive), false),
    (.«approximator», (some .mushroom), false), (.«target_approximator», (some .mushroom), false),
    (.«policy», (some .mushroom), false), (.«next_action», (some .none), false),
    (.«mdp_info», (some .mushroom), false), (.«_info», (some .mushroom), false),
    (.«_agent_backend», (some .primitive), false), (.«_env_backend», (some .primitive), false),
    (.«_core_preprocessors», (some .mushroom), false), (.«_agent_preprocessors», (some .mushroom), false),
    (.«_logger», (some .none), false)]
  post := [.«_fit»]
  sets := [.«_fit_params», .«_predict_params», .«_batch_size», .«_clip_reward», .«_target_update_frequency»,
    .«_n_updates», .«_replay_memory», .«_fit», .«mdp_info», .«_info», .«policy», .«next_action»,
    .«_agent_backend», .«_env_backend», .«_core_preprocessors», .«_agent_preprocessors», .«_logger»,
    .«approximator», .«target_approximator»]
  reads := [.«target_approximator», .«_predict_params», .«_fit», .«_n_updates», .«_target_update_frequency»,
    .«_replay_memory», .«_clip_reward», .«_batch_size», .«approximator», .«_fit_params», .«mdp_info»,
    .«next_action», .«policy», .«_core_preprocessors», .«_agent_preprocessors», .«_agent_backend»,
    .«_env_backend», .«_info»]

/-- mushroom_rl/algorithms/value/dqn/maxmin_dqn.py L7-45. -/
def maxminDQN : Cls where
  name := "MaxminDQN"
  registered := [(.«_fit_params», (some .pickle), false), (.«_predict_params», (some .pickle), false),
    (.«_batch_size», (some .mushroom), false), (.«_n_approximators», (some .primitive), false),
    (.«_clip_reward», (some .primitive), false), (.«_target_update_frequency», (some .primitive), false),
    (.«_replay_memory», (some .mushroom), false), (.«_n_updates», (some .primitive), false),
    (.«approximator», (some .mushroom), false), (.«target_approximator», (some .mushroom), false),
    (.«policy», (some .mushroom), false), (.«next_action», (some .none), false),
    (.«mdp_info», (some .mushroom), false), (.«_info», (some .mushroom), false),
    (.«_agent_backend», (some .primitive), false), (.«_env_backend», (some .primitive), false),
    (.«_core_preprocessors», (some .mushroom), false), (.«_agent_preprocessors», (some .mushroom), false),
    (.«_logger», (some .none), false)]
  post := [.«_fit»]
  sets := [.«_n_approximators», .«_fit_params», .«_predict_params», .«_batch_size», .«_clip_reward»,
    .«_target_update_frequency», .«_n_updates», .«_replay_memory», .«_fit», .«mdp_info», .«_info», .«policy»,
    .«next_action», .«_agent_backend», .«_env_backend», .«_core_preprocessors», .«_agent_preprocessors»,
    .«_logger», .«approximator», .«target_approximator»]
  reads := [.«_fit_params», .«_n_approximators», .«_fit», .«_n_updates», .«_target_update_frequency»,
    .«target_approximator», .«approximator», .«_predict_params», .«_replay_memory», .«_clip_reward»,
    .«_batch_size», .«mdp_info», .«next_action», .«policy», .«_core_preprocessors», .«_agent_preprocessors»,
    .«_agent_backend», .«_env_backend», .«_info»]

/-- mushroom_rl/algorithms/value/dqn/noisy_dqn.py L85-102. -/
def noisyDQN : Cls where
  name := "NoisyDQN"
  registered := [(.«_fit_params», (some .pickle), false), (.«_predict_params», (some .pickle), false),
    (.«_batch_size», (some .mushroom), false), (.«_n_approximators», (some .primitive), false),
    (.«_clip_reward», (some .primitive), false), (.«_target_update_frequency», (some .primitive), false),
    (.«_replay_memory», (some .mushroom), false), (.«_n_updates», (some .primitive), false),
    (.«approximator», (some .mushroom), false), (.«target_approximator», (some .mushroom), false),
    (.«policy», (some .mushroom), false), (.«next_action», (some .none), false),
    (.«mdp_info», (some .mushroom), false), (.«_info», (some .mushroom), false),
    (.«_agent_backend», (some .primitive), false), (.«_env_backend», (some .primitive), false),
    (.«_core_preprocessors», (some .mushroom), false), (.«_agent_preprocessors», (some .mushroom), false),
    (.«_logger», (some .none), false)]
  post := [.«_fit»]
  sets := [.«_fit_params», .«_predict_params», .«_batch_size», .«_clip_reward», .«_target_update_frequency»,
    .«_n_updates», .«_replay_memory», .«_fit», .«mdp_info», .«_info», .«policy», .«next_action»,
    .«_agent_backend», .«_env_backend», .«_core_preprocessors», .«_agent_preprocessors», .«_logger»,
    .«approximator», .«target_approximator»]
  reads := [.«target_approximator», .«_predict_params», .«_fit», .«_n_updates», .«_target_update_frequency»,
    .«_replay_memory», .«_clip_reward», .«_batch_size», .«approximator», .«_fit_params», .«mdp_info»,
    .«next_action», .«policy», .«_core_preprocessors», .«_agent_preprocessors», .«_agent_backend»,
    .«_env_backend», .«_info»]

/-- mushroom_rl/algorithms/value/dqn/quantile_dqn.py L67-121. -/
def quantileDQN : Cls where
  name := "QuantileDQN"
  registered := [(.«_n_quantiles», (some .primitive), false), (.«_fit_params», (some .pickle), false),
    (.«_predict_params», (some .pickle), false), (.«_batch_size», (some .mushroom), false),
    (.«_n_approximators», (some .primitive), false), (.«_clip_reward», (some .primitive), false),
    (.«_target_update_frequency», (some .primitive), false), (.«_replay_memory», (some .mushroom), false),
    (.«_n_updates», (some .primitive), false), (.«approximator», (some .mushroom), false),
    (.«target_approximator», (some .mushroom), false), (.«policy», (some .mushroom), false),
    (.«next_action», (some .none), false), (.«mdp_info», (some .mushroom), false),
    (.«_info», (some .mushroom), false), (.«_agent_backend», (some .primitive), false),
    (.«_env_backend», (some .primitive), false), (.«_core_preprocessors», (some .mushroom), false),
    (.«_agent_preprocessors», (some .mushroom), false), (.«_logger», (some .none), false)]
  post := [.«_fit»]
  sets := [.«_n_quantiles», .«_fit_params», .«_predict_params», .«_batch_size», .«_clip_reward»,
    .«_target_update_frequency», .«_n_updates», .«_replay_memory», .«_fit», .«mdp_info», .«_info», .«policy»,
    .«next_action», .«_agent_backend», .«_env_backend», .«_core_preprocessors», .«_agent_preprocessors»,
    .«_logger», .«approximator», .«target_approximator»]
  reads := [.«_replay_memory», .«_clip_reward», .«_batch_size», .«target_approximator», .«_predict_params»,
    .«approximator», .«_fit_params», .«_n_updates», .«_target_update_frequency», .«mdp_info», .«next_action»,
    .«policy», .«_core_preprocessors», .«_agent_preprocessors», .«_agent_backend», .«_env_backend», .«_info»]

/-- mushroom_rl/algorithms/value/dqn/rainbow.py L67-165. -/
def rainbow : Cls where
  name := "Rainbow"
  registered := [(.«_n_atoms», (some .primitive), false), (.«_v_min», (some .primitive), false),
    (.«_v_max», (some .primitive), false), (.«_delta», (some .primitive), false),
    (.«_a_values», (some .numpy), false), (.«_n_steps_return», (some .primitive), false),
    (.«_sigma_coeff», (some .primitive), false), (.«_fit_params», (some .pickle), false),
    (.«_predict_params», (some .pickle), false), (.«_batch_size», (some .mushroom), false),
    (.«_n_approximators», (some .primitive), false), (.«_clip_reward», (some .primitive), false),
    (.«_target_update_frequency», (some .primitive), false), (.«_replay_memory», (some .mushroom), false),
    (.«_n_updates», (some .primitive), false), (.«approximator», (some .mushroom), false),
    (.«target_approximator», (some .mushroom), false), (.«policy», (some .mushroom), false),
    (.«next_action», (some .none), false), (.«mdp_info», (some .mushroom), false),
    (.«_info», (some .mushroom), false), (.«_agent_backend», (some .primitive), false),
    (.«_env_backend», (some .primitive), false), (.«_core_preprocessors», (some .mushroom), false),
    (.«_agent_preprocessors», (some .mushroom), false), (.«_logger», (some .none), false)]
  post := [.«_fit»]
  sets := [.«_n_atoms», .«_v_min», .«_v_max», .«_delta», .«_a_values», .«_n_steps_return», .«_sigma_coeff»,
    .«_fit_params», .«_predict_params», .«_batch_size», .«_clip_reward», .«_target_update_frequency»,
    .«_n_updates», .«_replay_memory», .«_fit», .«mdp_info», .«_info», .«policy», .«next_action»,
    .«_agent_backend», .«_env_backend», .«_core_preprocessors», .«_agent_preprocessors», .«_logger»,
    .«approximator», .«target_approximator»]
  reads := [.«_replay_memory», .«_clip_reward», .«_n_steps_return», .«_v_min», .«_v_max», .«_delta», .«_n_atoms»,
    .«mdp_info», .«_batch_size», .«approximator», .«_predict_params», .«target_approximator», .«_fit_params»,
    .«_n_updates», .«_target_update_frequency», .«_a_values», .«next_action», .«policy»,
    .«_core_preprocessors», .«_agent_preprocessors», .«_agent_backend», .«_env_backend», .«_info»]

/-- mushroom_rl/algorithms/value/td/double_q_learning.py L8-45. -/
def doubleQLearning : Cls where
  name := "DoubleQLearning"
  registered := [(.«_alpha_double», (some .primitive), false), (.«_alpha», (some .mushroom), false),
    (.«Q», (some .mushroom), false), (.«policy», (some .mushroom), false),
    (.«next_action», (some .none), false), (.«mdp_info», (some .mushroom), false),
    (.«_info», (some .mushroom), false), (.«_agent_backend», (some .primitive), false),
    (.«_env_backend», (some .primitive), false), (.«_core_preprocessors», (some .mushroom), false),
    (.«_agent_preprocessors», (some .mushroom), false), (.«_logger», (some .none), false)]
  post := []
  sets := [.«_alpha_double», .«_alpha», .«Q», .«mdp_info», .«_info», .«policy», .«next_action», .«_agent_backend»,
    .«_env_backend», .«_core_preprocessors», .«_agent_preprocessors», .«_logger»]
  reads := [.«Q», .«_alpha_double», .«mdp_info», .«next_action», .«policy», .«_core_preprocessors»,
    .«_agent_preprocessors», .«_agent_backend», .«_env_backend», .«_info»]

/-- mushroom_rl/algorithms/value/td/expected_sarsa.py L5-26. -/
def expectedSARSA : Cls where
  name := "ExpectedSARSA"
  registered := [(.«_alpha», (some .mushroom), false), (.«Q», (some .mushroom), false),
    (.«policy», (some .mushroom), false), (.«next_action», (some .none), false),
    (.«mdp_info», (some .mushroom), false), (.«_info», (some .mushroom), false),
    (.«_agent_backend», (some .primitive), false), (.«_env_backend», (some .primitive), false),
    (.«_core_preprocessors», (some .mushroom), false), (.«_agent_preprocessors», (some .mushroom), false),
    (.«_logger», (some .none), false)]
  post := []
  sets := [.«_alpha», .«Q», .«mdp_info», .«_info», .«policy», .«next_action», .«_agent_backend», .«_env_backend»,
    .«_core_preprocessors», .«_agent_preprocessors», .«_logger»]
  reads := [.«Q», .«policy», .«_alpha», .«mdp_info», .«next_action», .«_core_preprocessors», .«_agent_preprocessors»,
    .«_agent_backend», .«_env_backend», .«_info»]

/-- mushroom_rl/algorithms/value/td/maxmin_q_learning.py L8-46. -/
def maxminQLearning : Cls where
  name := "MaxminQLearning"
  registered := [(.«_n_tables», (some .primitive), false), (.«_alpha_mm», (some .primitive), false),
    (.«_alpha», (some .mushroom), false), (.«Q», (some .mushroom), false),
    (.«policy», (some .mushroom), false), (.«next_action», (some .none), false),
    (.«mdp_info», (some .mushroom), false), (.«_info», (some .mushroom), false),
    (.«_agent_backend», (some .primitive), false), (.«_env_backend», (some .primitive), false),
    (.«_core_preprocessors», (some .mushroom), false), (.«_agent_preprocessors», (some .mushroom), false),
    (.«_logger», (some .none), false)]
  post := []
  sets := [.«_n_tables», .«_alpha_mm», .«_alpha», .«Q», .«mdp_info», .«_info», .«policy», .«next_action»,
    .«_agent_backend», .«_env_backend», .«_core_preprocessors», .«_agent_preprocessors», .«_logger»]
  reads := [.«_n_tables», .«Q», .«_alpha_mm», .«mdp_info», .«next_action», .«policy», .«_core_preprocessors»,
    .«_agent_preprocessors», .«_agent_backend», .«_env_backend», .«_info»]

/-- mushroom_rl/algorithms/value/td/q_lambda.py L9-50. -/
def qLambda : Cls where
  name := "QLambda"
  registered := [(.«_lambda», (some .mushroom), false), (.«e», (some .mushroom), false),
    (.«_alpha», (some .mushroom), false), (.«Q», (some .mushroom), false),
    (.«policy», (some .mushroom), false), (.«next_action», (some .none), false),
    (.«mdp_info», (some .mushroom), false), (.«_info», (some .mushroom), false),
    (.«_agent_backend», (some .primitive), false), (.«_env_backend», (some .primitive), false),
    (.«_core_preprocessors», (some .mushroom), false), (.«_agent_preprocessors», (some .mushroom), false),
    (.«_logger», (some .none), false)]
  post := []
  sets := [.«_lambda», .«e», .«_alpha», .«Q», .«mdp_info», .«_info», .«policy», .«next_action», .«_agent_backend»,
    .«_env_backend», .«_core_preprocessors», .«_agent_preprocessors», .«_logger»]
  reads := [.«Q», .«e», .«mdp_info», .«_lambda», .«_alpha», .«policy», .«next_action», .«_core_preprocessors»,
    .«_agent_preprocessors», .«_agent_backend», .«_env_backend», .«_info»]

/-- mushroom_rl/algorithms/value/td/q_learning.py L7-24. -/
def qLearning : Cls where
  name := "QLearning"
  registered := [(.«_alpha», (some .mushroom), false), (.«Q», (some .mushroom), false),
    (.«policy», (some .mushroom), false), (.«next_action», (some .none), false),
    (.«mdp_info», (some .mushroom), false), (.«_info», (some .mushroom), false),
    (.«_agent_backend», (some .primitive), false), (.«_env_backend», (some .primitive), false),
    (.«_core_preprocessors», (some .mushroom), false), (.«_agent_preprocessors», (some .mushroom), false),
    (.«_logger», (some .none), false)]
  post := []
  sets := [.«_alpha», .«Q», .«mdp_info», .«_info», .«policy», .«next_action», .«_agent_backend», .«_env_backend»,
    .«_core_preprocessors», .«_agent_preprocessors», .«_logger»]
  reads := [.«Q», .«_alpha», .«mdp_info», .«next_action», .«policy», .«_core_preprocessors», .«_agent_preprocessors»,
    .«_agent_backend», .«_env_backend», .«_info»]

/-- mushroom_rl/algorithms/value/td/r_learning.py L9-43. -/
def rLearning : Cls where
  name := "RLearning"
  registered := [(.«_rho», (some .primitive), false), (.«_beta», (some .mushroom), false),
    (.«_alpha», (some .mushroom), false), (.«Q», (some .mushroom), false),
    (.«policy», (some .mushroom), false), (.«next_action», (some .none), false),
    (.«mdp_info», (some .mushroom), false), (.«_info», (some .mushroom), false),
    (.«_agent_backend», (some .primitive), false), (.«_env_backend», (some .primitive), false),
    (.«_core_preprocessors», (some .mushroom), false), (.«_agent_preprocessors», (some .mushroom), false),
    (.«_logger», (some .none), false)]
  post := []
  sets := [.«_rho», .«_beta», .«_alpha», .«Q», .«mdp_info», .«_info», .«policy», .«next_action», .«_agent_backend»,
    .«_env_backend», .«_core_preprocessors», .«_agent_preprocessors», .«_logger»]
  reads := [.«Q», .«_rho», .«_alpha», .«_beta», .«next_action», .«policy», .«_core_preprocessors»,
    .«_agent_preprocessors», .«_agent_backend», .«_env_backend», .«_info»]

/-- mushroom_rl/algorithms/value/td/rq_learning.py L8-83. -/
def rQLearning : Cls where
  name := "RQLearning"
  registered := [(.«off_policy», (some .primitive), false), (.«delta», (some .mushroom), false),
    (.«beta», (some .mushroom), false), (.«Q_tilde», (some .mushroom), false),
    (.«R_tilde», (some .mushroom), false), (.«_alpha», (some .mushroom), false),
    (.«Q», (some .mushroom), false), (.«policy», (some .mushroom), false),
    (.«next_action», (some .none), false), (.«mdp_info», (some .mushroom), false),
    (.«_info», (some .mushroom), false), (.«_agent_backend», (some .primitive), false),
    (.«_env_backend», (some .primitive), false), (.«_core_preprocessors», (some .mushroom), false),
    (.«_agent_preprocessors», (some .mushroom), false), (.«_logger», (some .none), false)]
  post := []
  sets := [.«off_policy», .«Q_tilde», .«R_tilde», .«delta», .«beta», .«_alpha», .«Q», .«mdp_info», .«_info»,
    .«policy», .«next_action», .«_agent_backend», .«_env_backend», .«_core_preprocessors»,
    .«_agent_preprocessors», .«_logger»]
  reads := [.«_alpha», .«R_tilde», .«Q», .«delta», .«Q_tilde», .«beta», .«mdp_info», .«off_policy», .«next_action»,
    .«policy», .«_core_preprocessors», .«_agent_preprocessors», .«_agent_backend», .«_env_backend», .«_info»]

/-- mushroom_rl/algorithms/value/td/sarsa.py L5-22. -/
def sarsa : Cls where
  name := "SARSA"
  registered := [(.«_alpha», (some .mushroom), false), (.«Q», (some .mushroom), false),
    (.«policy», (some .mushroom), false), (.«next_action», (some .none), false),
    (.«mdp_info», (some .mushroom), false), (.«_info», (some .mushroom), false),
    (.«_agent_backend», (some .primitive), false), (.«_env_backend», (some .primitive), false),
    (.«_core_preprocessors», (some .mushroom), false), (.«_agent_preprocessors», (some .mushroom), false),
    (.«_logger», (some .none), false)]
  post := []
  sets := [.«_alpha», .«Q», .«mdp_info», .«_info», .«policy», .«next_action», .«_agent_backend», .«_env_backend»,
    .«_core_preprocessors», .«_agent_preprocessors», .«_logger»]
  reads := [.«Q», .«next_action», .«_alpha», .«mdp_info», .«policy», .«_core_preprocessors», .«_agent_preprocessors»,
    .«_agent_backend», .«_env_backend», .«_info»]

/-- mushroom_rl/algorithms/value/td/sarsa_lambda.py L7-47. -/
def sARSALambda : Cls where
  name := "SARSALambda"
  registered := [(.«_lambda», (some .mushroom), false), (.«e», (some .mushroom), false),
    (.«_alpha», (some .mushroom), false), (.«Q», (some .mushroom), false),
    (.«policy», (some .mushroom), false), (.«next_action», (some .none), false),
    (.«mdp_info», (some .mushroom), false), (.«_info», (some .mushroom), false),
    (.«_agent_backend», (some .primitive), false), (.«_env_backend», (some .primitive), false),
    (.«_core_preprocessors», (some .mushroom), false), (.«_agent_preprocessors», (some .mushroom), false),
    (.«_logger», (some .none), false)]
  post := []
  sets := [.«_lambda», .«e», .«_alpha», .«Q», .«mdp_info», .«_info», .«policy», .«next_action», .«_agent_backend»,
    .«_env_backend», .«_core_preprocessors», .«_agent_preprocessors», .«_logger»]
  reads := [.«Q», .«e», .«mdp_info», .«_lambda», .«next_action», .«_alpha», .«policy», .«_core_preprocessors»,
    .«_agent_preprocessors», .«_agent_backend», .«_env_backend», .«_info»]

/-- mushroom_rl/algorithms/value/td/sarsa_lambda_continuous.py L8-53. -/
def sARSALambdaContinuous : Cls where
  name := "SARSALambdaContinuous"
  registered := [(.«_lambda», (some .primitive), false), (.«e», (some .numpy), false),
    (.«_alpha», (some .mushroom), false), (.«Q», (some .mushroom), false),
    (.«policy», (some .mushroom), false), (.«next_action», (some .none), false),
    (.«mdp_info», (some .mushroom), false), (.«_info», (some .mushroom), false),
    (.«_agent_backend», (some .primitive), false), (.«_env_backend», (some .primitive), false),
    (.«_core_preprocessors», (some .mushroom), false), (.«_agent_preprocessors», (some .mushroom), false),
    (.«_logger», (some .none), false)]
  post := []
  sets := [.«e», .«_lambda», .«_alpha», .«Q», .«mdp_info», .«_info», .«policy», .«next_action», .«_agent_backend»,
    .«_env_backend», .«_core_preprocessors», .«_agent_preprocessors», .«_logger»]
  reads := [.«_alpha», .«e», .«Q», .«next_action», .«mdp_info», .«_lambda», .«policy», .«_core_preprocessors»,
    .«_agent_preprocessors», .«_agent_backend», .«_env_backend», .«_info»]

/-- mushroom_rl/algorithms/value/td/speedy_q_learning.py L8-36. -/
def speedyQLearning : Cls where
  name := "SpeedyQLearning"
  registered := [(.«old_q», (some .mushroom), false), (.«_alpha», (some .mushroom), false),
    (.«Q», (some .mushroom), false), (.«policy», (some .mushroom), false),
    (.«next_action», (some .none), false), (.«mdp_info», (some .mushroom), false),
    (.«_info», (some .mushroom), false), (.«_agent_backend», (some .primitive), false),
    (.«_env_backend», (some .primitive), false), (.«_core_preprocessors», (some .mushroom), false),
    (.«_agent_preprocessors», (some .mushroom), false), (.«_logger», (some .none), false)]
  post := []
  sets := [.«old_q», .«_alpha», .«Q», .«mdp_info», .«_info», .«policy», .«next_action», .«_agent_backend»,
    .«_env_backend», .«_core_preprocessors», .«_agent_preprocessors», .«_logger»]
  reads := [.«Q», .«_alpha», .«old_q», .«mdp_info», .«next_action», .«policy», .«_core_preprocessors»,
    .«_agent_preprocessors», .«_agent_backend», .«_env_backend», .«_info»]

/-- mushroom_rl/algorithms/value/td/td.py L6-50. -/
def td : Cls where
  name := "TD"
  registered := [(.«_alpha», (some .mushroom), false), (.«Q», (some .mushroom), false),
    (.«policy», (some .mushroom), false), (.«next_action», (some .none), false),
    (.«mdp_info», (some .mushroom), false), (.«_info», (some .mushroom), false),
    (.«_agent_backend», (some .primitive), false), (.«_env_backend», (some .primitive), false),
    (.«_core_preprocessors», (some .mushroom), false), (.«_agent_preprocessors», (some .mushroom), false),
    (.«_logger», (some .none), false)]
  post := []
  sets := [.«_alpha», .«Q», .«mdp_info», .«_info», .«policy», .«next_action», .«_agent_backend», .«_env_backend»,
    .«_core_preprocessors», .«_agent_preprocessors», .«_logger»]
  reads := [.«next_action», .«policy», .«_core_preprocessors», .«_agent_preprocessors», .«_agent_backend»,
    .«_env_backend», .«_info»]

/-- mushroom_rl/algorithms/value/td/true_online_sarsa_lambda.py L10-68. -/
def trueOnlineSARSALambda : Cls where
  name := "TrueOnlineSARSALambda"
  registered := [(.«_q_old», (some .numpy), false), (.«_lambda», (some .mushroom), false), (.«e», (some .numpy), false),
    (.«_alpha», (some .mushroom), false), (.«Q», (some .mushroom), false),
    (.«policy», (some .mushroom), false), (.«next_action», (some .none), false),
    (.«mdp_info», (some .mushroom), false), (.«_info», (some .mushroom), false),
    (.«_agent_backend», (some .primitive), false), (.«_env_backend», (some .primitive), false),
    (.«_core_preprocessors», (some .mushroom), false), (.«_agent_preprocessors», (some .mushroom), false),
    (.«_logger», (some .none), false)]
  post := []
  sets := [.«e», .«_lambda», .«_q_old», .«_alpha», .«Q», .«mdp_info», .«_info», .«policy», .«next_action»,
    .«_agent_backend», .«_env_backend», .«_core_preprocessors», .«_agent_preprocessors», .«_logger»]
  reads := [.«_q_old», .«_alpha», .«Q», .«e», .«next_action», .«mdp_info», .«_lambda», .«policy»,
    .«_core_preprocessors», .«_agent_preprocessors», .«_agent_backend», .«_env_backend», .«_info»]

/-- mushroom_rl/algorithms/value/td/weighted_q_learning.py L7-100. -/
def weightedQLearning : Cls where
  name := "WeightedQLearning"
  registered := [(.«_sampling», (some .primitive), false), (.«_precision», (some .primitive), false),
    (.«_n_updates», (some .mushroom), false), (.«_sigma», (some .mushroom), false),
    (.«_Q2», (some .mushroom), false), (.«_w», (some .primitive), false), (.«_w1», (some .mushroom), false),
    (.«_w2», (some .mushroom), false), (.«_alpha», (some .mushroom), false), (.«Q», (some .mushroom), false),
    (.«policy», (some .mushroom), false), (.«next_action», (some .none), false),
    (.«mdp_info», (some .mushroom), false), (.«_info», (some .mushroom), false),
    (.«_agent_backend», (some .primitive), false), (.«_env_backend», (some .primitive), false),
    (.«_core_preprocessors», (some .mushroom), false), (.«_agent_preprocessors», (some .mushroom), false),
    (.«_logger», (some .none), false)]
  post := []
  sets := [.«_sampling», .«_precision», .«_n_updates», .«_sigma», .«_Q2», .«_w1», .«_w2», .«_alpha», .«Q»,
    .«mdp_info», .«_info», .«policy», .«next_action», .«_agent_backend», .«_env_backend»,
    .«_core_preprocessors», .«_agent_preprocessors», .«_logger»]
  reads := [.«Q», .«_Q2», .«_alpha», .«_n_updates», .«_w2», .«_w1», .«_sigma», .«mdp_info», .«_sampling»,
    .«_precision», .«next_action», .«policy», .«_core_preprocessors», .«_agent_preprocessors»,
    .«_agent_backend», .«_env_backend», .«_info»]

/-- mushroom_rl/approximators/ensemble.py L8-143. -/
def ensemble : Cls where
  name := "Ensemble"
  registered := [(.«_model», none, false), (.«_prediction», (some .primitive), false)]
  post := []
  sets := [.«_model», .«_prediction»]
  reads := [.«_prediction», .«_model»]

/-- mushroom_rl/approximators/ensemble_table.py L5-25. -/
def ensembleTable : Cls where
  name := "EnsembleTable"
  registered := [(.«_model», none, false), (.«_prediction», (some .primitive), false)]
  post := []
  sets := [.«_model», .«_prediction»]
  reads := [.«_model», .«_prediction»]

/-- mushroom_rl/approximators/regressor.py L10-269. -/
def regressor : Cls where
  name := "Regressor"
  registered := [(.«_input_shape», (some .primitive), false), (.«_output_shape», (some .primitive), false),
    (.«n_actions», (some .primitive), false), (.«_n_models», (some .primitive), false),
    (.«_impl», (some .mushroom), false), (.«_logger», (some .none), false)]
  post := []
  sets := [.«_input_shape», .«_output_shape», .«n_actions», .«_n_models», .«_logger», .«_loss_filename», .«_impl»]
  reads := [.«_input_shape», .«_impl», .«_output_shape», .«_n_models», .«_logger», .«_loss_filename»]

/-- mushroom_rl/approximators/table.py L6-102. -/
def table : Cls where
  name := "Table"
  registered := [(.«table», (some .numpy), false)]
  post := []
  sets := [.«table»]
  reads := [.«table»]

/-- mushroom_rl/approximators/_implementations/action_regressor.py L6-136. -/
def actionRegressor : Cls where
  name := "ActionRegressor"
  registered := [(.«_n_actions», (some .primitive), false), (.«model», none, false)]
  post := []
  sets := [.«model», .«_n_actions»]
  reads := [.«model», .«_n_actions»]

/-- mushroom_rl/approximators/_implementations/generic_regressor.py L4-81. -/
def genericRegressor : Cls where
  name := "GenericRegressor"
  registered := [(.«_n_inputs», (some .primitive), false), (.«model», none, false)]
  post := []
  sets := [.«_n_inputs», .«model»]
  reads := [.«model»]

/-- mushroom_rl/approximators/_implementations/q_regressor.py L5-100. -/
def qRegressor : Cls where
  name := "QRegressor"
  registered := [(.«model», none, false)]
  post := []
  sets := [.«model»]
  reads := [.«model»]

/-- mushroom_rl/approximators/parametric/cmac.py L7-94. -/
def cmac : Cls where
  name := "CMAC"
  registered := [(.«_n», (some .primitive), false), (.«_w», (some .numpy), false), (.«_phi», (some .pickle), false)]
  post := []
  sets := [.«_n», .«_phi», .«_w»]
  reads := [.«_phi», .«_w»]

/-- mushroom_rl/approximators/parametric/linear.py L6-145. -/
def linearApproximator : Cls where
  name := "LinearApproximator"
  registered := [(.«_w», (some .numpy), false), (.«_phi», (some .pickle), false)]
  post := []
  sets := [.«_phi», .«_w»]
  reads := [.«_w», .«_phi»]

/-- mushroom_rl/approximators/parametric/torch_approximator.py L10-315. -/
def torchApproximator : Cls where
  name := "TorchApproximator"
  registered := [(.«_batch_size», (some .primitive), false), (.«_reinitialize», (some .primitive), false),
    (.«_dropout», (some .primitive), false), (.«_quiet», (some .primitive), false),
    (.«_n_fit_targets», (some .primitive), false), (.«network», (some .torch), false),
    (.«_optimizer», (some .torch), false), (.«_loss», (some .pickle), false),
    (.«_last_loss», (some .none), false)]
  post := []
  sets := [.«_batch_size», .«_reinitialize», .«_dropout», .«_quiet», .«_n_fit_targets», .«network», .«_loss»,
    .«_last_loss», .«_optimizer»]
  reads := [.«network», .«_reinitialize», .«_dropout», .«_quiet», .«_batch_size», .«_optimizer», .«_loss»,
    .«_n_fit_targets», .«_last_loss»]

/-- mushroom_rl/approximators/parametric/torch_approximator.py L318-385. -/
def numpyTorchApproximator : Cls where
  name := "NumpyTorchApproximator"
  registered := [(.«_batch_size», (some .primitive), false), (.«_reinitialize», (some .primitive), false),
    (.«_dropout», (some .primitive), false), (.«_quiet», (some .primitive), false),
    (.«_n_fit_targets», (some .primitive), false), (.«network», (some .torch), false),
    (.«_optimizer», (some .torch), false), (.«_loss», (some .pickle), false),
    (.«_last_loss», (some .none), false)]
  post := []
  sets := [.«_batch_size», .«_reinitialize», .«_dropout», .«_quiet», .«_n_fit_targets», .«network», .«_loss»,
    .«_last_loss», .«_optimizer»]
  reads := [.«network», .«_reinitialize», .«_dropout», .«_quiet», .«_batch_size», .«_optimizer», .«_loss»,
    .«_n_fit_targets», .«_last_loss»]

/-- mushroom_rl/core/agent.py L5-21. -/
def agentInfo : Cls where
  name := "AgentInfo"
  registered := [(.«is_episodic», (some .primitive), false), (.«is_stateful», (some .primitive), false),
    (.«policy_state_shape», (some .primitive), false), (.«backend», (some .primitive), false)]
  post := []
  sets := [.«is_episodic», .«is_stateful», .«policy_state_shape», .«backend»]
  reads := []

/-- mushroom_rl/core/agent.py L24-219. -/
def agent : Cls where
  name := "Agent"
  registered := [(.«policy», (some .mushroom), false), (.«next_action», (some .none), false),
    (.«mdp_info», (some .mushroom), false), (.«_info», (some .mushroom), false),
    (.«_agent_backend», (some .primitive), false), (.«_env_backend», (some .primitive), false),
    (.«_core_preprocessors», (some .mushroom), false), (.«_agent_preprocessors», (some .mushroom), false),
    (.«_logger», (some .none), false)]
  post := []
  sets := [.«mdp_info», .«_info», .«policy», .«next_action», .«_agent_backend», .«_env_backend»,
    .«_core_preprocessors», .«_agent_preprocessors», .«_logger»]
  reads := [.«next_action», .«policy», .«_core_preprocessors», .«_agent_preprocessors», .«_agent_backend»,
    .«_env_backend», .«_info»]

/-- mushroom_rl/core/dataset.py L14-74. -/
def datasetInfo : Cls where
  name := "DatasetInfo"
  registered := [(.«backend», (some .primitive), false), (.«gamma», (some .primitive), false),
    (.«horizon», (some .primitive), false), (.«state_shape», (some .primitive), false),
    (.«state_dtype», (some .primitive), false), (.«action_shape», (some .primitive), false),
    (.«action_dtype», (some .primitive), false), (.«policy_state_shape», (some .primitive), false),
    (.«n_envs», (some .primitive), false)]
  post := []
  sets := [.«backend», .«device», .«horizon», .«gamma», .«state_shape», .«state_dtype», .«action_shape»,
    .«action_dtype», .«policy_state_shape», .«n_envs»]
  reads := [.«policy_state_shape»]

/-- mushroom_rl/core/dataset.py L77-541. -/
def dataset : Cls where
  name := "Dataset"
  registered := [(.«_info», (some .mushroom), false), (.«_episode_info», (some .mushroom), false),
    (.«_theta_list», (some .pickle), false), (.«_data», (some .mushroom), false),
    (.«_array_backend», (some .primitive), false), (.«_dataset_info», (some .mushroom), false)]
  post := []
  sets := [.«_array_backend», .«_info», .«_episode_info», .«_theta_list», .«_dataset_info», .«_data»]
  reads := [.«_data», .«_info», .«_episode_info», .«_theta_list», .«_array_backend», .«_dataset_info»]

/-- mushroom_rl/core/dataset.py L544-649. -/
def vectorizedDataset : Cls where
  name := "VectorizedDataset"
  registered := [(.«_info», (some .mushroom), false), (.«_episode_info», (some .mushroom), false),
    (.«_theta_list», (some .pickle), false), (.«_data», (some .mushroom), false),
    (.«_array_backend», (some .primitive), false), (.«_dataset_info», (some .mushroom), false)]
  post := []
  sets := [.«_array_backend», .«_info», .«_episode_info», .«_theta_list», .«_dataset_info», .«_data»]
  reads := [.«_data», .«_info», .«_theta_list», .«_episode_info», .«_dataset_info», .«_array_backend»]

/-- mushroom_rl/core/environment.py L7-57. -/
def mDPInfo : Cls where
  name := "MDPInfo"
  registered := [(.«observation_space», (some .mushroom), false), (.«action_space», (some .mushroom), false),
    (.«gamma», (some .primitive), false), (.«horizon», (some .primitive), false),
    (.«dt», (some .primitive), false), (.«backend», (some .primitive), false)]
  post := []
  sets := [.«observation_space», .«action_space», .«gamma», .«horizon», .«dt», .«backend»]
  reads := [.«observation_space», .«action_space»]

/-- mushroom_rl/core/extra_info.py L6-412. -/
def extraInfo : Cls where
  name := "ExtraInfo"
  registered := [(.«data», (some .primitive), false), (.«_storage», (some .primitive), false),
    (.«_structured_storage», (some .primitive), false), (.«_key_mapping», (some .primitive), false),
    (.«_shape_mapping», (some .primitive), false)]
  post := []
  sets := [.«_n_envs», .«_array_backend», .«_device», .«_storage», .«_key_mapping», .«_shape_mapping»,
    .«_structured_storage»]
  reads := [.«_n_envs», .«_storage», .«_structured_storage», .«_device», .«_key_mapping», .«_array_backend»,
    .«_shape_mapping»]

/-- mushroom_rl/core/_impl/list_dataset.py L6-169. -/
def listDataset : Cls where
  name := "ListDataset"
  registered := [(.«_dataset», (some .pickle), false), (.«_policy_dataset», (some .pickle), false),
    (.«_is_stateful», (some .primitive), false)]
  post := []
  sets := [.«_dataset», .«_policy_dataset», .«_is_stateful», .«_mask»]
  reads := [.«_dataset», .«_is_stateful», .«_policy_dataset», .«_mask»]

/-- mushroom_rl/core/_impl/numpy_dataset.py L6-288. -/
def numpyDataset : Cls where
  name := "NumpyDataset"
  registered := [(.«_state_type», (some .primitive), false), (.«_action_type», (some .primitive), false),
    (.«_states», (some .numpy), false), (.«_actions», (some .numpy), false),
    (.«_rewards», (some .numpy), false), (.«_next_states», (some .numpy), false),
    (.«_absorbing», (some .numpy), false), (.«_last», (some .numpy), false),
    (.«_policy_states», (some .numpy), false), (.«_policy_next_states», (some .numpy), false),
    (.«_mask», (some .numpy), false), (.«_len», (some .primitive), false)]
  post := []
  sets := [.«_state_type», .«_action_type», .«_states», .«_actions», .«_rewards», .«_next_states», .«_absorbing»,
    .«_last», .«_len», .«_policy_states», .«_policy_next_states», .«_mask»]
  reads := [.«_len», .«_states», .«_actions», .«_rewards», .«_next_states», .«_absorbing», .«_last»,
    .«_policy_states», .«_policy_next_states», .«_mask»]

/-- mushroom_rl/core/_impl/torch_dataset.py L7-288. -/
def torchDataset : Cls where
  name := "TorchDataset"
  registered := [(.«_state_type», (some .primitive), false), (.«_action_type», (some .primitive), false),
    (.«_device», (some .primitive), false), (.«_states», (some .torch), false),
    (.«_actions», (some .torch), false), (.«_rewards», (some .torch), false),
    (.«_next_states», (some .torch), false), (.«_absorbing», (some .torch), false),
    (.«_last», (some .torch), false), (.«_policy_states», (some .numpy), false),
    (.«_policy_next_states», (some .numpy), false), (.«_len», (some .primitive), false)]
  post := []
  sets := [.«_device», .«_state_type», .«_action_type», .«_states», .«_actions», .«_rewards», .«_next_states»,
    .«_absorbing», .«_last», .«_len», .«_policy_states», .«_policy_next_states», .«_mask»]
  reads := [.«_len», .«_states», .«_actions», .«_rewards», .«_next_states», .«_absorbing», .«_last»,
    .«_policy_states», .«_policy_next_states», .«_mask»]

/-- mushroom_rl/distributions/distribution.py L4-156. -/
def distribution : Cls where
  name := "Distribution"
  registered := [(.«_context_shape», (some .primitive), false)]
  post := []
  sets := [.«_context_shape»]
  reads := [.«_context_shape»]

/-- mushroom_rl/distributions/gaussian.py L7-125. -/
def gaussianDistribution : Cls where
  name := "GaussianDistribution"
  registered := [(.«_mu», (some .numpy), false), (.«_sigma», (some .numpy), false), (.«_inv_sigma», (some .numpy), false),
    (.«_context_shape», (some .primitive), false)]
  post := []
  sets := [.«_mu», .«_sigma», .«_inv_sigma», .«_context_shape»]
  reads := [.«_mu», .«_sigma», .«_inv_sigma», .«_context_shape»]

/-- mushroom_rl/distributions/gaussian.py L128-282. -/
def gaussianDiagonalDistribution : Cls where
  name := "GaussianDiagonalDistribution"
  registered := [(.«_mu», (some .numpy), false), (.«_std», (some .numpy), false),
    (.«_context_shape», (some .primitive), false)]
  post := []
  sets := [.«_mu», .«_std», .«_context_shape»]
  reads := [.«_mu», .«_std», .«_context_shape»]

/-- mushroom_rl/distributions/gaussian.py L285-453. -/
def gaussianCholeskyDistribution : Cls where
  name := "GaussianCholeskyDistribution"
  registered := [(.«_mu», (some .numpy), false), (.«_chol_sigma», (some .numpy), false),
    (.«_context_shape», (some .primitive), false)]
  post := []
  sets := [.«_mu», .«_chol_sigma», .«_context_shape»]
  reads := [.«_mu», .«_chol_sigma», .«_context_shape»]

/-- mushroom_rl/distributions/torch_distribution.py L6-60. -/
def abstractGaussianTorchDistribution : Cls where
  name := "AbstractGaussianTorchDistribution"
  registered := [(.«_context_shape», (some .primitive), false)]
  post := []
  sets := [.«_context_shape»]
  reads := [.«_context_shape»]

/-- mushroom_rl/distributions/torch_distribution.py L63-97. -/
def diagonalGaussianTorchDistribution : Cls where
  name := "DiagonalGaussianTorchDistribution"
  registered := [(.«_mu», (some .torch), false), (.«_log_sigma», (some .torch), false),
    (.«_context_shape», (some .primitive), false)]
  post := []
  sets := [.«_mu», .«_log_sigma», .«_context_shape»]
  reads := [.«_mu», .«_log_sigma», .«_context_shape»]

/-- mushroom_rl/distributions/torch_distribution.py L100-139. -/
def choleskyGaussianTorchDistribution : Cls where
  name := "CholeskyGaussianTorchDistribution"
  registered := [(.«_mu», (some .torch), false), (.«_chol_sigma», (some .torch), false),
    (.«_context_shape», (some .primitive), false)]
  post := []
  sets := [.«_mu», .«_chol_sigma», .«_context_shape»]
  reads := [.«_mu», .«_chol_sigma», .«_context_shape»]

/-- mushroom_rl/policy/deterministic_policy.py L5-56. -/
def deterministicPolicy : Cls where
  name := "DeterministicPolicy"
  registered := [(.«_approximator», (some .mushroom), false), (.«_predict_params», (some .pickle), false),
    (.«policy_state_shape», (some .primitive), false)]
  post := []
  sets := [.«_approximator», .«_predict_params», .«policy_state_shape»]
  reads := [.«_approximator», .«_predict_params», .«policy_state_shape»]

/-- mushroom_rl/policy/dmp.py L6-112. -/
def dmp : Cls where
  name := "DMP"
  registered := [(.«_approximator», (some .mushroom), false), (.«_phi», (some .mushroom), false),
    (.«_dt», (some .primitive), false), (.«_tau», (some .primitive), false),
    (.«_alpha_v», (some .numpy), false), (.«_beta_v», (some .numpy), false),
    (.«_alpha_z», (some .numpy), false), (.«_beta_z», (some .numpy), false), (.«_g», (some .numpy), false),
    (.«_v», (some .numpy), false), (.«_x», (some .numpy), false), (.«_z», (some .numpy), false),
    (.«_y», (some .numpy), false)]
  post := []
  sets := [.«_approximator», .«_phi», .«_g», .«_dt», .«_tau», .«_alpha_v», .«_beta_v», .«_alpha_z», .«_beta_z»,
    .«_v», .«_x», .«_z», .«_y»]
  reads := [.«_y», .«_g», .«_v», .«_dt», .«_approximator», .«_phi», .«_x», .«_tau», .«_alpha_z», .«_z», .«_beta_z»,
    .«_alpha_v», .«_beta_v»]

/-- mushroom_rl/policy/gaussian_policy.py L7-27. -/
def abstractGaussianPolicy : Cls where
  name := "AbstractGaussianPolicy"
  registered := [(.«policy_state_shape», (some .primitive), false)]
  post := []
  sets := [.«policy_state_shape»]
  reads := [.«policy_state_shape»]

/-- mushroom_rl/policy/gaussian_policy.py L30-104. -/
def gaussianPolicy : Cls where
  name := "GaussianPolicy"
  registered := [(.«_approximator», (some .mushroom), false), (.«_predict_params», (some .pickle), false),
    (.«_inv_sigma», (some .numpy), false), (.«_sigma», (some .numpy), false),
    (.«policy_state_shape», (some .primitive), false)]
  post := []
  sets := [.«_approximator», .«_predict_params», .«_inv_sigma», .«_sigma», .«policy_state_shape»]
  reads := [.«_approximator», .«_sigma», .«_inv_sigma», .«_predict_params», .«policy_state_shape»]

/-- mushroom_rl/policy/gaussian_policy.py L107-184. -/
def diagonalGaussianPolicy : Cls where
  name := "DiagonalGaussianPolicy"
  registered := [(.«_approximator», (some .mushroom), false), (.«_predict_params», (some .pickle), false),
    (.«_std», (some .numpy), false), (.«policy_state_shape», (some .primitive), false)]
  post := []
  sets := [.«_approximator», .«_predict_params», .«_std», .«policy_state_shape»]
  reads := [.«_approximator», .«_std», .«_predict_params», .«policy_state_shape»]

/-- mushroom_rl/policy/gaussian_policy.py L187-279. -/
def stateStdGaussianPolicy : Cls where
  name := "StateStdGaussianPolicy"
  registered := [(.«_mu_approximator», (some .mushroom), false), (.«_std_approximator», (some .mushroom), false),
    (.«_predict_params», (some .pickle), false), (.«_eps», (some .primitive), false),
    (.«policy_state_shape», (some .primitive), false)]
  post := []
  sets := [.«_mu_approximator», .«_std_approximator», .«_predict_params», .«_eps», .«policy_state_shape»]
  reads := [.«_mu_approximator», .«_std_approximator», .«_eps», .«_predict_params», .«policy_state_shape»]

/-- mushroom_rl/policy/gaussian_policy.py L282-368. -/
def stateLogStdGaussianPolicy : Cls where
  name := "StateLogStdGaussianPolicy"
  registered := [(.«_mu_approximator», (some .mushroom), false), (.«_log_std_approximator», (some .mushroom), false),
    (.«_predict_params», (some .pickle), false), (.«policy_state_shape», (some .primitive), false)]
  post := []
  sets := [.«_mu_approximator», .«_log_std_approximator», .«_predict_params», .«policy_state_shape»]
  reads := [.«_mu_approximator», .«_log_std_approximator», .«_predict_params», .«policy_state_shape»]

/-- mushroom_rl/policy/noise_policy.py L7-72. -/
def ornsteinUhlenbeckPolicy : Cls where
  name := "OrnsteinUhlenbeckPolicy"
  registered := [(.«_approximator», (some .mushroom), false), (.«_predict_params», (some .pickle), false),
    (.«_sigma», (some .torch), false), (.«_theta», (some .primitive), false),
    (.«_dt», (some .primitive), false), (.«_x0», (some .torch), false),
    (.«policy_state_shape», (some .primitive), false)]
  post := []
  sets := [.«_approximator», .«_predict_params», .«_sigma», .«_theta», .«_dt», .«_x0», .«_x_prev»,
    .«policy_state_shape»]
  reads := [.«_dt», .«_approximator», .«_predict_params», .«_sigma», .«_theta», .«_x0», .«policy_state_shape»]

/-- mushroom_rl/policy/noise_policy.py L75-139. -/
def clippedGaussianPolicy : Cls where
  name := "ClippedGaussianPolicy"
  registered := [(.«_approximator», (some .mushroom), false), (.«_predict_params», (some .pickle), false),
    (.«_chol_sigma», (some .torch), false), (.«_low», (some .torch), false),
    (.«_high», (some .torch), false), (.«policy_state_shape», (some .primitive), false)]
  post := []
  sets := [.«_approximator», .«_predict_params», .«_chol_sigma», .«_low», .«_high», .«policy_state_shape»]
  reads := [.«_chol_sigma», .«_low», .«_high», .«_approximator», .«_predict_params», .«policy_state_shape»]

/-- mushroom_rl/policy/policy.py L4-71. -/
def policy : Cls where
  name := "Policy"
  registered := [(.«policy_state_shape», (some .primitive), false)]
  post := []
  sets := [.«policy_state_shape»]
  reads := [.«policy_state_shape»]

/-- mushroom_rl/policy/policy.py L74-162. -/
def parametricPolicy : Cls where
  name := "ParametricPolicy"
  registered := [(.«policy_state_shape», (some .primitive), false)]
  post := []
  sets := [.«policy_state_shape»]
  reads := [.«policy_state_shape»]

/-- mushroom_rl/policy/promps.py L7-117. -/
def proMP : Cls where
  name := "ProMP"
  registered := [(.«_approximator», (some .mushroom), false), (.«_phi», (some .mushroom), false),
    (.«_duration», (some .primitive), false), (.«_sigma», (some .numpy), false),
    (.«_periodic», (some .primitive), false), (.«policy_state_shape», (some .primitive), false)]
  post := []
  sets := [.«_approximator», .«_phi», .«_duration», .«_sigma», .«_periodic», .«policy_state_shape»]
  reads := [.«_approximator», .«_sigma», .«_phi», .«_duration», .«_periodic», .«policy_state_shape»]

/-- mushroom_rl/policy/recurrent_torch_policy.py L9-63. -/
def recurrentGaussianTorchPolicy : Cls where
  name := "RecurrentGaussianTorchPolicy"
  registered := [(.«_action_dim», (some .primitive), false), (.«_mu», (some .mushroom), false),
    (.«_predict_params», (some .pickle), false), (.«_log_sigma», (some .torch), false),
    (.«policy_state_shape», (some .primitive), false)]
  post := []
  sets := [.«_log_std_min», .«_log_std_max», .«_action_dim», .«_mu», .«_predict_params», .«_log_sigma»,
    .«policy_state_shape»]
  reads := [.«policy_state_shape», .«_log_sigma», .«_action_dim», .«_mu», .«_predict_params», .«_log_std_min»,
    .«_log_std_max»]

/-- mushroom_rl/policy/td_policy.py L9-37. -/
def tDPolicy : Cls where
  name := "TDPolicy"
  registered := [(.«_approximator», (some .mushroom), true), (.«_predict_params», (some .pickle), false),
    (.«policy_state_shape», (some .primitive), false)]
  post := []
  sets := [.«_approximator», .«_predict_params», .«policy_state_shape»]
  reads := [.«_approximator», .«policy_state_shape»]

/-- mushroom_rl/policy/td_policy.py L40-113. -/
def epsGreedy : Cls where
  name := "EpsGreedy"
  registered := [(.«_epsilon», (some .mushroom), false), (.«_approximator», (some .mushroom), true),
    (.«_predict_params», (some .pickle), false), (.«policy_state_shape», (some .primitive), false)]
  post := []
  sets := [.«_epsilon», .«_approximator», .«_predict_params», .«policy_state_shape»]
  reads := [.«_approximator», .«_epsilon», .«_predict_params», .«policy_state_shape»]

/-- mushroom_rl/policy/td_policy.py L116-173. -/
def boltzmann : Cls where
  name := "Boltzmann"
  registered := [(.«_beta», (some .mushroom), false), (.«_approximator», (some .mushroom), true),
    (.«_predict_params», (some .pickle), false), (.«policy_state_shape», (some .primitive), false)]
  post := []
  sets := [.«_beta», .«_approximator», .«_predict_params», .«policy_state_shape»]
  reads := [.«_beta», .«_approximator», .«_predict_params», .«policy_state_shape»]

/-- mushroom_rl/policy/td_policy.py L176-238. -/
def mellowmax : Cls where
  name := "Mellowmax"
  registered := [(.«_beta», (some .mushroom), false), (.«_approximator», (some .mushroom), true),
    (.«_predict_params», (some .pickle), false), (.«policy_state_shape», (some .primitive), false)]
  post := []
  sets := [.«_beta», .«_approximator», .«_predict_params», .«policy_state_shape»]
  reads := [.«_beta», .«_approximator», .«_predict_params», .«policy_state_shape»]

/-- mushroom_rl/policy/td_policy.py L183-215. -/
def mellowmaxParameter : Cls where
  name := "MellowmaxParameter"
  registered := [(.«_omega», (some .primitive), false), (.«_outer», (some .primitive), false),
    (.«_beta_min», (some .primitive), false), (.«_beta_max», (some .primitive), false)]
  post := []
  sets := [.«_omega», .«_outer», .«_beta_min», .«_beta_max»]
  reads := [.«_omega», .«_outer», .«_beta_min», .«_beta_max»]

/-- mushroom_rl/policy/torch_policy.py L15-166. -/
def torchPolicy : Cls where
  name := "TorchPolicy"
  registered := [(.«policy_state_shape», (some .primitive), false)]
  post := []
  sets := [.«policy_state_shape»]
  reads := [.«policy_state_shape»]

/-- mushroom_rl/policy/torch_policy.py L169-237. -/
def gaussianTorchPolicy : Cls where
  name := "GaussianTorchPolicy"
  registered := [(.«_action_dim», (some .primitive), false), (.«_mu», (some .mushroom), false),
    (.«_predict_params», (some .pickle), false), (.«_log_sigma», (some .torch), false),
    (.«policy_state_shape», (some .primitive), false)]
  post := []
  sets := [.«_action_dim», .«_mu», .«_predict_params», .«_log_sigma», .«policy_state_shape»]
  reads := [.«_log_sigma», .«_action_dim», .«_mu», .«_predict_params», .«policy_state_shape»]

/-- mushroom_rl/policy/torch_policy.py L240-304. -/
def boltzmannTorchPolicy : Cls where
  name := "BoltzmannTorchPolicy"
  registered := [(.«_action_dim», (some .primitive), false), (.«_predict_params», (some .pickle), false),
    (.«_beta», (some .mushroom), false), (.«_logits», (some .mushroom), false),
    (.«policy_state_shape», (some .primitive), false)]
  post := []
  sets := [.«_action_dim», .«_predict_params», .«_logits», .«_beta», .«policy_state_shape»]
  reads := [.«_logits», .«_beta», .«_predict_params», .«policy_state_shape»]

/-- mushroom_rl/policy/vector_policy.py L7-108. -/
def vectorPolicy : Cls where
  name := "VectorPolicy"
  registered := [(.«_policy_vector», (some .mushroom), false), (.«policy_state_shape», (some .primitive), false)]
  post := []
  sets := [.«_policy_vector», .«policy_state_shape»]
  reads := [.«_policy_vector», .«policy_state_shape»]

/-- mushroom_rl/rl_utils/eligibility_trace.py L24-33. -/
def replacingTrace : Cls where
  name := "ReplacingTrace"
  registered := [(.«table», (some .numpy), false)]
  post := []
  sets := [.«table»]
  reads := [.«table»]

/-- mushroom_rl/rl_utils/eligibility_trace.py L36-45. -/
def accumulatingTrace : Cls where
  name := "AccumulatingTrace"
  registered := [(.«table», (some .numpy), false)]
  post := []
  sets := [.«table»]
  reads := [.«table»]

/-- mushroom_rl/rl_utils/optimizers.py L7-34. -/
def optimizer : Cls where
  name := "Optimizer"
  registered := [(.«_lr», (some .mushroom), false), (.«_maximize», (some .primitive), false)]
  post := []
  sets := [.«_maximize», .«_lr»]
  reads := []

/-- mushroom_rl/rl_utils/optimizers.py L37-96. -/
def adaptiveOptimizer : Cls where
  name := "AdaptiveOptimizer"
  registered := [(.«_eps», (some .primitive), false), (.«_lr», (some .mushroom), false),
    (.«_maximize», (some .primitive), false)]
  post := []
  sets := [.«_eps», .«_maximize», .«_lr»]
  reads := [.«_maximize», .«_eps»]

/-- mushroom_rl/rl_utils/optimizers.py L99-118. -/
def sGDOptimizer : Cls where
  name := "SGDOptimizer"
  registered := [(.«_lr», (some .mushroom), false), (.«_maximize», (some .primitive), false)]
  post := []
  sets := [.«_maximize», .«_lr»]
  reads := [.«_maximize», .«_lr»]

/-- mushroom_rl/rl_utils/optimizers.py L121-171. -/
def adamOptimizer : Cls where
  name := "AdamOptimizer"
  registered := [(.«_m», (some .numpy), false), (.«_v», (some .numpy), false), (.«_beta1», (some .primitive), false),
    (.«_beta2», (some .primitive), false), (.«_t», (some .primitive), false),
    (.«_lr», (some .mushroom), false), (.«_maximize», (some .primitive), false)]
  post := []
  sets := [.«_m», .«_v», .«_beta1», .«_beta2», .«_eps», .«_t», .«_maximize», .«_lr»]
  reads := [.«_maximize», .«_m», .«_v», .«_beta1», .«_beta2», .«_eps», .«_t», .«_lr»]

/-- mushroom_rl/rl_utils/parameters.py L14-115. -/
def parameter : Cls where
  name := "Parameter"
  registered := [(.«_initial_value», (some .primitive), false), (.«_min_value», (some .primitive), false),
    (.«_max_value», (some .primitive), false), (.«_n_updates», (some .mushroom), false)]
  post := []
  sets := [.«_initial_value», .«_min_value», .«_max_value», .«_n_updates»]
  reads := [.«_n_updates», .«_min_value», .«_max_value», .«_initial_value»]

/-- mushroom_rl/rl_utils/parameters.py L118-152. -/
def linearParameter : Cls where
  name := "LinearParameter"
  registered := [(.«_coeff», (some .primitive), false), (.«_initial_value», (some .primitive), false),
    (.«_min_value», (some .primitive), false), (.«_max_value», (some .primitive), false),
    (.«_n_updates», (some .mushroom), false)]
  post := []
  sets := [.«_coeff», .«_initial_value», .«_min_value», .«_max_value», .«_n_updates»]
  reads := [.«_initial_value», .«_coeff», .«_n_updates», .«_min_value», .«_max_value»]

/-- mushroom_rl/rl_utils/parameters.py L155-188. -/
def decayParameter : Cls where
  name := "DecayParameter"
  registered := [(.«_exp», (some .primitive), false), (.«_initial_value», (some .primitive), false),
    (.«_min_value», (some .primitive), false), (.«_max_value», (some .primitive), false),
    (.«_n_updates», (some .mushroom), false)]
  post := []
  sets := [.«_exp», .«_initial_value», .«_min_value», .«_max_value», .«_n_updates»]
  reads := [.«_initial_value», .«_n_updates», .«_exp», .«_min_value», .«_max_value»]

/-- mushroom_rl/rl_utils/preprocessors.py L7-35. -/
def preprocessor : Cls where
  name := "Preprocessor"
  registered := []
  post := []
  sets := []
  reads := []

/-- mushroom_rl/rl_utils/preprocessors.py L38-80. -/
def standardizationPreprocessor : Cls where
  name := "StandardizationPreprocessor"
  registered := [(.«_clip_obs», (some .primitive), false), (.«_obs_shape», (some .primitive), false),
    (.«_array_backend», (some .pickle), false), (.«_obs_runstand», (some .mushroom), false)]
  post := []
  sets := [.«_clip_obs», .«_obs_shape», .«_array_backend», .«_obs_runstand»]
  reads := [.«_clip_obs», .«_array_backend», .«_obs_runstand»]

/-- mushroom_rl/rl_utils/preprocessors.py L83-139. -/
def minMaxPreprocessor : Cls where
  name := "MinMaxPreprocessor"
  registered := [(.«_array_backend», (some .pickle), false), (.«_run_norm_obs», (some .primitive), false),
    (.«_obs_mask», (some .numpy), false), (.«_obs_mean», (some .numpy), false),
    (.«_obs_delta», (some .numpy), false), (.«_clip_obs», (some .primitive), false),
    (.«_obs_shape», (some .primitive), false), (.«_obs_runstand», (some .mushroom), false)]
  post := []
  sets := [.«_obs_mask», .«_run_norm_obs», .«_obs_mean», .«_obs_delta», .«_clip_obs», .«_obs_shape»,
    .«_array_backend», .«_obs_runstand»]
  reads := [.«_run_norm_obs», .«_obs_mask», .«_array_backend», .«_obs_delta», .«_obs_mean», .«_clip_obs»,
    .«_obs_runstand»]

/-- mushroom_rl/rl_utils/replay_memory.py L8-164. -/
def replayMemory : Cls where
  name := "ReplayMemory"
  registered := [(.«_initial_size», (some .primitive), false), (.«_max_size», (some .primitive), false),
    (.«_mdp_info», (some .mushroom), false), (.«_agent_info», (some .mushroom), false),
    (.«_idx», (some .primitive), true), (.«_full», (some .primitive), true),
    (.«_dataset», (some .mushroom), true)]
  post := [.«_idx», .«_full», .«_dataset»]
  sets := [.«_initial_size», .«_max_size», .«_idx», .«_full», .«_mdp_info», .«_agent_info», .«_dataset»]
  reads := [.«_dataset», .«_full», .«_agent_info», .«_idx», .«_max_size», .«_mdp_info», .«_initial_size»]

/-- mushroom_rl/rl_utils/replay_memory.py L167-261. -/
def sequenceReplayMemory : Cls where
  name := "SequenceReplayMemory"
  registered := [(.«_truncation_length», (some .primitive), false), (.«_action_space_shape», (some .primitive), false),
    (.«_initial_size», (some .primitive), false), (.«_max_size», (some .primitive), false),
    (.«_mdp_info», (some .mushroom), false), (.«_agent_info», (some .mushroom), false),
    (.«_idx», (some .primitive), true), (.«_full», (some .primitive), true),
    (.«_dataset», (some .mushroom), true)]
  post := [.«_idx», .«_full», .«_dataset»]
  sets := [.«_truncation_length», .«_action_space_shape», .«_initial_size», .«_max_size», .«_idx», .«_full»,
    .«_mdp_info», .«_agent_info», .«_dataset»]
  reads := [.«_truncation_length», .«_dataset», .«_agent_info», .«_mdp_info», .«_action_space_shape», .«_full»,
    .«_idx», .«_max_size», .«_initial_size»]

/-- mushroom_rl/rl_utils/replay_memory.py L264-466. -/
def sumTree : Cls where
  name := "SumTree"
  registered := [(.«_max_size», (some .primitive), false), (.«_idx», (some .primitive), false),
    (.«_full», (some .primitive), false), (.«_tree», (some .numpy), false),
    (.«_mdp_info», (some .mushroom), false), (.«_agent_info», (some .mushroom), false),
    (.«dataset», (some .mushroom), true)]
  post := [.«dataset»]
  sets := [.«_max_size», .«_tree», .«_mdp_info», .«_agent_info», .«dataset», .«_idx», .«_full»]
  reads := [.«dataset», .«_full», .«_agent_info», .«_idx», .«_max_size», .«_tree»]

/-- mushroom_rl/rl_utils/replay_memory.py L469-599. -/
def prioritizedReplayMemory : Cls where
  name := "PrioritizedReplayMemory"
  registered := [(.«_initial_size», (some .primitive), false), (.«_max_size», (some .primitive), false),
    (.«_alpha», (some .primitive), false), (.«_beta», (some .primitive), false),
    (.«_epsilon», (some .primitive), false), (.«_tree», (some .mushroom), false)]
  post := []
  sets := [.«_initial_size», .«_max_size», .«_alpha», .«_beta», .«_epsilon», .«_tree»]
  reads := [.«_tree», .«_beta», .«_alpha», .«_epsilon», .«_initial_size»]

/-- mushroom_rl/rl_utils/running_stats.py L6-84. -/
def runningStandardization : Cls where
  name := "RunningStandardization"
  registered := [(.«_shape», (some .primitive), false), (.«_alpha», (some .primitive), false),
    (.«_array_backend», (some .pickle), false), (.«_n», (some .primitive), false),
    (.«_m», (some .primitive), false), (.«_s», (some .primitive), false)]
  post := []
  sets := [.«_shape», .«_alpha», .«_array_backend», .«_n», .«_m», .«_s»]
  reads := [.«_array_backend», .«_shape», .«_alpha», .«_s», .«_n», .«_m»]

/-- mushroom_rl/rl_utils/running_stats.py L87-149. -/
def runningExpWeightedAverage : Cls where
  name := "RunningExpWeightedAverage"
  registered := [(.«_shape», (some .primitive), false), (.«_alpha», (some .primitive), false),
    (.«_array_backend», (some .pickle), false), (.«_avg_value», (some .primitive), false)]
  post := []
  sets := [.«_shape», .«_alpha», .«_array_backend», .«_avg_value»]
  reads := [.«_array_backend», .«_shape», .«_avg_value», .«_alpha»]

/-- mushroom_rl/rl_utils/running_stats.py L152-215. -/
def runningAveragedWindow : Cls where
  name := "RunningAveragedWindow"
  registered := [(.«_shape», (some .primitive), false), (.«_window_size», (some .primitive), false),
    (.«_array_backend», (some .pickle), false), (.«_avg_buffer», (some .primitive), false)]
  post := []
  sets := [.«_shape», .«_window_size», .«_array_backend», .«_avg_buffer»]
  reads := [.«_window_size», .«_array_backend», .«_shape», .«_avg_buffer»]

/-- mushroom_rl/rl_utils/spaces.py L6-86. -/
def box : Cls where
  name := "Box"
  registered := [(.«_low», (some .numpy), false), (.«_high», (some .numpy), false),
    (.«_data_type», (some .primitive), false)]
  post := [.«_shape»]
  sets := [.«_data_type», .«_low», .«_high», .«_shape»]
  reads := [.«_low», .«_high», .«_shape», .«_data_type»]

/-- mushroom_rl/rl_utils/spaces.py L89-131. -/
def discrete : Cls where
  name := "Discrete"
  registered := [(.«n», (some .primitive), false), (.«values», (some .numpy), false)]
  post := []
  sets := [.«values», .«n»]
  reads := [.«n»]

/-- mushroom_rl/rl_utils/variance_parameters.py L7-81. -/
def varianceParameter : Cls where
  name := "VarianceParameter"
  registered := [(.«_exponential», (some .primitive), false), (.«_tol», (some .primitive), false),
    (.«_weights_var», (some .mushroom), false), (.«_x», (some .mushroom), false),
    (.«_x2», (some .mushroom), false), (.«_parameter_value», (some .mushroom), false),
    (.«_initial_value», (some .primitive), false), (.«_min_value», (some .primitive), false),
    (.«_max_value», (some .primitive), false), (.«_n_updates», (some .mushroom), false)]
  post := []
  sets := [.«_exponential», .«_tol», .«_weights_var», .«_x», .«_x2», .«_parameter_value», .«_initial_value»,
    .«_min_value», .«_max_value», .«_n_updates»]
  reads := [.«_parameter_value», .«_n_updates», .«_initial_value», .«_x», .«_x2», .«_weights_var», .«_min_value»,
    .«_max_value»]

/-- mushroom_rl/rl_utils/variance_parameters.py L84-94. -/
def varianceIncreasingParameter : Cls where
  name := "VarianceIncreasingParameter"
  registered := [(.«_exponential», (some .primitive), false), (.«_tol», (some .primitive), false),
    (.«_weights_var», (some .mushroom), false), (.«_x», (some .mushroom), false),
    (.«_x2», (some .mushroom), false), (.«_parameter_value», (some .mushroom), false),
    (.«_initial_value», (some .primitive), false), (.«_min_value», (some .primitive), false),
    (.«_max_value», (some .primitive), false), (.«_n_updates», (some .mushroom), false)]
  post := []
  sets := [.«_exponential», .«_tol», .«_weights_var», .«_x», .«_x2», .«_parameter_value», .«_initial_value»,
    .«_min_value», .«_max_value», .«_n_updates»]
  reads := [.«_exponential», .«_tol», .«_parameter_value», .«_n_updates», .«_initial_value», .«_x», .«_x2»,
    .«_weights_var», .«_min_value», .«_max_value»]

/-- mushroom_rl/rl_utils/variance_parameters.py L97-107. -/
def varianceDecreasingParameter : Cls where
  name := "VarianceDecreasingParameter"
  registered := [(.«_exponential», (some .primitive), false), (.«_tol», (some .primitive), false),
    (.«_weights_var», (some .mushroom), false), (.«_x», (some .mushroom), false),
    (.«_x2», (some .mushroom), false), (.«_parameter_value», (some .mushroom), false),
    (.«_initial_value», (some .primitive), false), (.«_min_value», (some .primitive), false),
    (.«_max_value», (some .primitive), false), (.«_n_updates», (some .mushroom), false)]
  post := []
  sets := [.«_exponential», .«_tol», .«_weights_var», .«_x», .«_x2», .«_parameter_value», .«_initial_value»,
    .«_min_value», .«_max_value», .«_n_updates»]
  reads := [.«_exponential», .«_tol», .«_parameter_value», .«_n_updates», .«_initial_value», .«_x», .«_x2»,
    .«_weights_var», .«_min_value», .«_max_value»]

/-- mushroom_rl/rl_utils/variance_parameters.py L110-197. -/
def windowedVarianceParameter : Cls where
  name := "WindowedVarianceParameter"
  registered := [(.«_exponential», (some .primitive), false), (.«_tol», (some .primitive), false),
    (.«_weights_var», (some .mushroom), false), (.«_samples», (some .mushroom), false),
    (.«_index», (some .mushroom), false), (.«_window», (some .primitive), false),
    (.«_parameter_value», (some .mushroom), false), (.«_initial_value», (some .primitive), false),
    (.«_min_value», (some .primitive), false), (.«_max_value», (some .primitive), false),
    (.«_n_updates», (some .mushroom), false)]
  post := []
  sets := [.«_exponential», .«_tol», .«_weights_var», .«_samples», .«_index», .«_window», .«_parameter_value»,
    .«_initial_value», .«_min_value», .«_max_value», .«_n_updates»]
  reads := [.«_parameter_value», .«_n_updates», .«_initial_value», .«_samples», .«_index», .«_window»,
    .«_weights_var», .«_min_value», .«_max_value»]

/-- mushroom_rl/rl_utils/variance_parameters.py L200-211. -/
def windowedVarianceIncreasingParameter : Cls where
  name := "WindowedVarianceIncreasingParameter"
  registered := [(.«_exponential», (some .primitive), false), (.«_tol», (some .primitive), false),
    (.«_weights_var», (some .mushroom), false), (.«_samples», (some .mushroom), false),
    (.«_index», (some .mushroom), false), (.«_window», (some .primitive), false),
    (.«_parameter_value», (some .mushroom), false), (.«_initial_value», (some .primitive), false),
    (.«_min_value», (some .primitive), false), (.«_max_value», (some .primitive), false),
    (.«_n_updates», (some .mushroom), false)]
  post := []
  sets := [.«_exponential», .«_tol», .«_weights_var», .«_samples», .«_index», .«_window», .«_parameter_value»,
    .«_initial_value», .«_min_value», .«_max_value», .«_n_updates»]
  reads := [.«_exponential», .«_tol», .«_parameter_value», .«_n_updates», .«_initial_value», .«_samples», .«_index»,
    .«_window», .«_weights_var», .«_min_value», .«_max_value»]

/-- All the classes. -/
def allClasses : List Cls := [
  copdac_q, stochasticAC, stochasticAC_AVG, a2c, ddpg, onPolicyDeepAC, deepAC, ppo, ppo_bptt, sACPolicy, sac,
  td3, trpo, blackBoxOptimization, constrainedREPS, contextBuilder, ePPO, more, pgpe, reps, rwr, eNAC,
  gpomdp, policyGradient, reinforce, batchTD, boostedFQI, doubleFQI, fqi, lspi, abstractDQN, averagedDQN,
  categoricalDQN, doubleDQN, dqn, duelingDQN, maxminDQN, noisyDQN, quantileDQN, rainbow, doubleQLearning,
  expectedSARSA, maxminQLearning, qLambda, qLearning, rLearning, rQLearning, sarsa, sARSALambda,
  sARSALambdaContinuous, speedyQLearning, td, trueOnlineSARSALambda, weightedQLearning, ensemble,
  ensembleTable, regressor, table, actionRegressor, genericRegressor, qRegressor, cmac, linearApproximator,
  torchApproximator, numpyTorchApproximator, agentInfo, agent, datasetInfo, dataset, vectorizedDataset,
  mDPInfo, extraInfo, listDataset, numpyDataset, torchDataset, distribution, gaussianDistribution,
  gaussianDiagonalDistribution, gaussianCholeskyDistribution, abstractGaussianTorchDistribution,
  diagonalGaussianTorchDistribution, choleskyGaussianTorchDistribution, deterministicPolicy, dmp,
  abstractGaussianPolicy, gaussianPolicy, diagonalGaussianPolicy, stateStdGaussianPolicy,
  stateLogStdGaussianPolicy, ornsteinUhlenbeckPolicy, clippedGaussianPolicy, policy, parametricPolicy, proMP,
  recurrentGaussianTorchPolicy, tDPolicy, epsGreedy, boltzmann, mellowmax, mellowmaxParameter, torchPolicy,
  gaussianTorchPolicy, boltzmannTorchPolicy, vectorPolicy, replacingTrace, accumulatingTrace, optimizer,
  adaptiveOptimizer, sGDOptimizer, adamOptimizer, parameter, linearParameter, decayParameter, preprocessor,
  standardizationPreprocessor, minMaxPreprocessor, replayMemory, sequenceReplayMemory, sumTree,
  prioritizedReplayMemory, runningStandardization, runningExpWeightedAverage, runningAveragedWindow, box,
  discrete, varianceParameter, varianceIncreasingParameter, varianceDecreasingParameter,
  windowedVarianceParameter, windowedVarianceIncreasingParameter]

end Verif.Serialization.Table
