{"id": "C01", "title": "learn by steps: exact number of interactions, fits and fit batches", "statement": "Core.learn(n_steps=N, n_steps_per_fit=k) with k>=1 interacts with the environment exactly N times, calls agent.fit exactly N//k times, and the j-th fit receives exactly the transitions number j*k .. j*k+k-1 of the run, in order; so every transition is delivered at most once and only the last N mod k are not delivered.", "quantifier": "every N, every k>=1, every environment (any sequence of rewards, absorbing flags and states), every policy and every learning rule", "why_tests_cant": "The loop bound and fit trigger are counters; a test fixes one N, k and one environment, while off-by-one errors only show for particular N mod k or episode patterns.", "anchors": ["mushroom_rl/core/core.py:Core._run", "mushroom_rl/core/_impl/core_logic.py:CoreLogic"]}
{"id": "C02", "title": "learn by episodes: exact number of episodes, fits and complete-episode batches", "statement": "Core.learn(n_episodes=N, n_episodes_per_fit=k) with k>=1 stops at the step which completes the N-th episode, calls agent.fit exactly N//k times, and each fit receives exactly k whole episodes (the batch ends with an end-of-episode step and contains k of them), consecutive batches being consecutive blocks of the run.", "quantifier": "every N, every k>=1, every environment whose episodes end, every policy and learning rule", "why_tests_cant": "Episode lengths are arbitrary and data-dependent; tests sample a few environments.", "anchors": ["mushroom_rl/core/core.py:Core._run", "mushroom_rl/core/_impl/core_logic.py:CoreLogic"]}
{"id": "C03", "title": "Transitions are chained and flags are right", "statement": "In every dataset produced by Core: the last flag of a step is true exactly when the environment reported absorbing or the step is the horizon-th of its episode; the state of a step that follows a non-last step is the next_state of that step; the state of the first step of an episode is the (preprocessed) reset state; and no episode is longer than the horizon.", "quantifier": "every environment, policy, horizon, mix of steps/episodes arguments, and every history", "why_tests_cant": "Needs an induction over the run; tests look at one trajectory.", "anchors": ["mushroom_rl/core/core.py:Core._step", "mushroom_rl/core/core.py:Core._reset", "mushroom_rl/core/core.py:Core._run"]}
{"id": "C04", "title": "evaluate never fits and returns the whole history", "statement": "Core.evaluate never calls agent.fit, and the dataset it returns contains all the transitions of the run in order, none dropped, duplicated or modified. With initial_states the run has exactly len(initial_states) episodes and the k-th one is reset to the k-th given state.", "quantifier": "every environment, policy, and n_steps / n_episodes / initial_states argument", "why_tests_cant": "Holds for every history length and every episode-length pattern.", "anchors": ["mushroom_rl/core/core.py:Core.evaluate", "mushroom_rl/core/_impl/core_logic.py:CoreLogic.get_initial_state"]}
{"id": "C05", "title": "Mixed budgets: fit by steps while moving by episodes and vice versa", "statement": "With any combination of a moving budget (n_steps or n_episodes) and a fit period (n_steps_per_fit or n_episodes_per_fit), the concatenation of the batches given to fit plus the final undelivered remainder equals the run's transition sequence, each batch is the shortest block meeting the fit period, and calls with an invalid combination (both or neither of a pair) are rejected before any interaction.", "quantifier": "every argument combination, environment and policy", "why_tests_cant": "There are infinitely many interleavings of episode ends with fit triggers.", "anchors": ["mushroom_rl/core/_impl/core_logic.py:CoreLogic.initialize_learn", "mushroom_rl/core/_impl/core_logic.py:CoreLogic.initialize_run", "mushroom_rl/core/core.py:Core._run"]}
{"id": "C06", "title": "The preallocated dataset never overflows", "statement": "The number of rows Dataset.generate preallocates (n_steps, or n_episodes*horizon) is never exceeded by a run of Core.learn or Core.evaluate when the horizon is finite or the budget is in steps; when fits are per episode and the dataset is sized by episodes the same bound holds for each batch.", "quantifier": "every environment, horizon, budget and episode pattern", "why_tests_cant": "An overflow only appears on particular episode-length patterns.", "anchors": ["mushroom_rl/core/dataset.py:Dataset.generate", "mushroom_rl/core/_impl/numpy_dataset.py:NumpyDataset.append"]}
{"id": "C07", "title": "Dataset is a list of transitions", "statement": "For every sequence of append, clear and read operations, len, iteration and indexing of a Dataset agree with the plain list of transitions appended since the last clear; indexing with an index in [0,len) returns exactly the tuple that was appended there.", "quantifier": "every operation sequence, any capacity not exceeded", "why_tests_cant": "The array-backed implementation keeps stale rows beyond the logical length; only an invariant over all histories shows that they are never visible.", "anchors": ["mushroom_rl/core/dataset.py:Dataset", "mushroom_rl/core/_impl/numpy_dataset.py:NumpyDataset", "mushroom_rl/core/_impl/list_dataset.py:ListDataset"]}
{"id": "C08", "title": "compute_J is the discounted return of each episode", "statement": "Dataset.compute_J(gamma) returns, for every episode in order (the trailing incomplete one included), the sum over its steps t=0,1,.. of gamma^t * reward, and for an empty dataset a single 0.", "quantifier": "every dataset (any pattern of last flags), every gamma", "why_tests_cant": "Episode patterns are unbounded.", "anchors": ["mushroom_rl/core/dataset.py:Dataset.compute_J"]}
{"id": "C09", "title": "Episode bookkeeping is consistent", "statement": "episodes_length lists, in order, the lengths of the complete episodes (maximal blocks ended by a last flag); they are all positive, and together with the trailing incomplete block they add up to len(dataset). n_episodes is the number of complete episodes plus one if the dataset does not end with a last step. compute_metrics reports min / max / mean / count of the discounted returns of exactly the complete episodes, and zeros when there is none.", "quantifier": "every nonempty array-backed dataset (n_episodes of an empty dataset is an IndexError)", "why_tests_cant": "Unbounded flag patterns.", "anchors": ["mushroom_rl/core/dataset.py:Dataset.episodes_length", "mushroom_rl/core/_impl/numpy_dataset.py:NumpyDataset.n_episodes"]}
{"id": "C10", "title": "Episode selection keeps whole prefixes", "statement": "select_first_episodes(k), for k>=1 and at least k complete episodes, returns exactly the prefix of the dataset made of its first k complete episodes (otherwise it raises); get_init_states returns exactly the first state of every episode, the trailing incomplete one included.", "quantifier": "every dataset and every k", "why_tests_cant": "Unbounded flag patterns.", "anchors": ["mushroom_rl/core/dataset.py:Dataset.select_first_episodes", "mushroom_rl/core/dataset.py:Dataset.get_init_states"]}
{"id": "C11", "title": "Concatenation of datasets", "statement": "d1 + d2 contains the transitions of d1 followed by those of d2, changed only in that the last flag of the last step of d1 is set, so no episode of the result spans both inputs and the number of episodes is the sum; adding an empty dataset on either side changes nothing else.", "quantifier": "all pairs of datasets", "why_tests_cant": "All pairs, all patterns.", "anchors": ["mushroom_rl/core/dataset.py:Dataset.__add__", "mushroom_rl/core/_impl/numpy_dataset.py:NumpyDataset.__add__"]}
{"id": "C12", "title": "CollectDataset reproduces the run", "statement": "The CollectDataset callback, fed with the datasets of all the fits of a run, holds exactly the transitions of the run, so compute_J and n_episodes on it equal those of the run.", "quantifier": "every run and fit period", "why_tests_cant": "Fails only when a fit boundary falls inside an episode.", "anchors": ["mushroom_rl/utils/callbacks/collect_dataset.py:CollectDataset", "mushroom_rl/core/dataset.py:Dataset.__add__"]}
{"id": "C13", "title": "ReplayMemory is a FIFO of the last max_size transitions", "statement": "After any sequence of add calls, size equals min(number of stored transitions, max_size), the stored multiset is exactly the most recent size transitions, each slot (i mod max_size) holds the most recent transition written there, and initialized is size > initial_size.", "quantifier": "every sequence of add calls with datasets of any length, every max_size>=1", "why_tests_cant": "Wrap-around behaviour over unbounded histories.", "anchors": ["mushroom_rl/rl_utils/replay_memory.py:ReplayMemory"]}
{"id": "C14", "title": "n-step transitions stay inside one episode and carry the discounted return", "statement": "ReplayMemory.add(dataset, n_steps_return=n, gamma) stores exactly one transition for every window of n consecutive steps that does not contain an end of episode before its last step: state and action of the first, sum_j gamma^j r_{i+j} as reward, next_state / absorbing / last of the n-th; nothing else is stored.", "quantifier": "every dataset, every n>=1, every gamma", "why_tests_cant": "Episode patterns around window boundaries are unbounded.", "anchors": ["mushroom_rl/rl_utils/replay_memory.py:ReplayMemory.add"]}
{"id": "C15", "title": "Adding to a replay memory does not modify the caller's dataset", "statement": "ReplayMemory.add leaves the dataset passed by the caller unchanged.", "quantifier": "every dataset, n_steps_return and gamma", "why_tests_cant": "Aliasing: only visible when the same dataset is used again after the call.", "anchors": ["mushroom_rl/rl_utils/replay_memory.py:ReplayMemory.add", "mushroom_rl/core/dataset.py:Dataset.parse"]}
{"id": "C16", "title": "Sequences sampled for recurrent agents are contiguous pieces of one episode", "statement": "Every sequence returned by SequenceReplayMemory.get ends at the sampled index, has length at most truncation_length, consists of transitions which were collected consecutively, and contains no end of episode before its last element. In the returned arrays every sequence is followed by zeros, and lengths tells where they begin.", "quantifier": "every memory content (before and after wrap-around), sampled index and truncation length", "why_tests_cant": "Fails only when the sampled window straddles the write pointer of a full buffer.", "anchors": ["mushroom_rl/rl_utils/replay_memory.py:SequenceReplayMemory.get"]}
{"id": "C17", "title": "SumTree totals are exact", "statement": "After any sequence of add and update operations total_p equals the sum of the current priorities of the stored leaves, and each internal node the sum of its leaves.", "quantifier": "every max_size>=2 (power of two or not), every operation sequence, every priority", "why_tests_cant": "Delta propagation over arbitrary histories.", "anchors": ["mushroom_rl/rl_utils/replay_memory.py:SumTree"]}
{"id": "C18", "title": "Proportional sampling from the SumTree", "statement": "SumTree.get(s) for 0<=s<=total_p returns the index of a stored transition, namely the leaf in whose cumulative-priority interval s falls, so uniform s samples leaves proportionally to priority.", "quantifier": "every tree content, every s in [0,total_p]", "why_tests_cant": "Depends on real-valued priorities and on ties between subtrees.", "anchors": ["mushroom_rl/rl_utils/replay_memory.py:SumTree._retrieve", "mushroom_rl/rl_utils/replay_memory.py:SumTree.get"]}
{"id": "C19", "title": "Importance weights are normalised", "statement": "The importance-sampling weights returned by PrioritizedReplayMemory.get are positive, at most 1, the largest is exactly 1, and an entry with smaller priority never has a smaller weight; priorities after update are strictly positive.", "quantifier": "every batch of positive priorities, every beta>=0", "why_tests_cant": "Real-valued.", "anchors": ["mushroom_rl/rl_utils/replay_memory.py:PrioritizedReplayMemory.get", "mushroom_rl/rl_utils/replay_memory.py:PrioritizedReplayMemory.update"]}
{"id": "C20", "title": "Saving and loading an object gives back its saved attributes", "statement": "For every Serializable object, load(save(obj, full_save)) yields an object of the same class whose attributes registered for saving are equal to the original ones (with '!' attributes restored iff full_save, all others None), recursively for mushroom attributes and lists of them.", "quantifier": "every object graph, every combination of save methods", "why_tests_cant": "Needs an induction on the object graph.", "anchors": ["mushroom_rl/core/serialization.py:Serializable"]}
{"id": "C21", "title": "VectorizedDataset.flatten keeps each environment's trajectory contiguous and ordered", "statement": "Flattening a vectorized dataset yields, environment by environment, exactly the active transitions of that environment (without policy states) in time order, with the final step of each environment's block marked last, so no flattened episode mixes environments.", "quantifier": "every number of environments, steps and activity mask", "why_tests_cant": "Index arithmetic over arbitrary shapes.", "anchors": ["mushroom_rl/core/dataset.py:VectorizedDataset.flatten", "mushroom_rl/core/array_backend.py:ArrayBackend.pack_padded_sequence"]}
{"id": "C22", "title": "VectorCore collects exactly the requested episodes / steps", "statement": "VectorCore.evaluate(n_episodes=N) on a fresh core with at least two environments stops, and the number of completed episodes among active environments is exactly N; with n_steps=N it stops as soon as at least N environment steps have been made.", "quantifier": "every number of environments, every episode pattern, every N", "why_tests_cant": "Mask bookkeeping over arbitrary interleavings of episode ends.", "anchors": ["mushroom_rl/core/_impl/vectorized_core_logic.py:VectorizedCoreLogic", "mushroom_rl/core/vectorized_core.py:VectorCore"]}
{"id": "C23", "title": "evaluate after learn behaves like evaluate on a fresh VectorCore", "statement": "VectorCore.evaluate terminates and collects N episodes regardless of earlier calls to learn on the same core.", "quantifier": "every history of learn/evaluate calls", "why_tests_cant": "State leaking between calls depends on the call history.", "anchors": ["mushroom_rl/core/_impl/vectorized_core_logic.py:VectorizedCoreLogic.initialize_evaluate"]}
{"id": "C24", "title": "Vectorized learning delivers every transition to exactly one fit", "statement": "In VectorCore.learn every transition collected by an active environment is given to at most one fit, and those left over from a fit are given to the next.", "quantifier": "every n_envs, n_steps_per_fit, episode pattern", "why_tests_cant": "Only visible when n_steps_per_fit is not a multiple of n_envs.", "anchors": ["mushroom_rl/core/dataset.py:VectorizedDataset.clear", "mushroom_rl/core/dataset.py:VectorizedDataset.flatten"]}
{"id": "C25", "title": "Scheduled parameters follow their schedule and stay in range", "statement": "LinearParameter decreases (or increases) linearly from its start value, reaches exactly the threshold at step n and stays there for ever; DecayParameter at update k is value/(k^p); reading a Parameter never changes it; counts are kept independently per table cell.", "quantifier": "every number of updates, every cell, all values of the constructor arguments", "why_tests_cant": "All step counts.", "anchors": ["mushroom_rl/rl_utils/parameters.py:Parameter", "mushroom_rl/rl_utils/parameters.py:LinearParameter", "mushroom_rl/rl_utils/parameters.py:DecayParameter"]}
{"id": "C26", "title": "EpsGreedy is a probability distribution with the right mass", "statement": "For every Q vector the probabilities reported by EpsGreedy sum to 1, are nonnegative for eps in [0,1], every maximising action has eps/n+(1-eps)/m and every other action eps/n; and drawing an action returns each action with exactly that probability.", "quantifier": "every finite Q vector with any pattern of ties, eps in [0,1]", "why_tests_cant": "Tie patterns and real values.", "anchors": ["mushroom_rl/policy/td_policy.py:EpsGreedy"]}
{"id": "C27", "title": "Boltzmann and Mellowmax are probability distributions that respect the action values", "statement": "Boltzmann probabilities are positive, sum to 1, are invariant to adding a constant to all the values, and a better action never has smaller probability (for nonnegative inverse temperature); the inverse temperature chosen by Mellowmax, when the root finder succeeds, makes the expected action value equal to the mellowmax of the values, which lies between the smallest and the largest value.", "quantifier": "every Q vector and beta", "why_tests_cant": "Real-valued.", "anchors": ["mushroom_rl/policy/td_policy.py:Boltzmann"]}
{"id": "C28", "title": "Tabular TD updates are local and never bootstrap from absorbing states", "statement": "One fit of QLearning / SARSA / ExpectedSARSA / DoubleQLearning etc. on a transition (s,a,r,s') changes no entry other than (s,a) (of one table), and when s' is absorbing the new value is Q(s,a)+alpha*(r-Q(s,a)).", "quantifier": "every table, transition and learning rate", "why_tests_cant": "All tables.", "anchors": ["mushroom_rl/algorithms/value/td/td.py:TD", "mushroom_rl/algorithms/value/td/q_learning.py:QLearning", "mushroom_rl/algorithms/value/td/double_q_learning.py:DoubleQLearning"]}
{"id": "C29", "title": "Q-learning values stay bounded", "statement": "If rewards lie in [-Rmax,Rmax], learning rates in [0,1], gamma in [0,1) and the initial table within Rmax/(1-gamma) in absolute value, then after any sequence of transitions all the action values stay within Rmax/(1-gamma).", "quantifier": "every sequence of transitions, every schedule of learning rates", "why_tests_cant": "Unbounded histories.", "anchors": ["mushroom_rl/algorithms/value/td/q_learning.py:QLearning._update"]}
{"id": "C30", "title": "Q-learning contracts toward the optimal value", "statement": "For deterministic MDPs, an update with any rate in [0,1] of any (s,a) never increases the max-norm distance to the fixed point Q* by leaving the ball, and updating every pair with rate 1 shrinks the distance by gamma.", "quantifier": "every table, every transition consistent with the MDP, every history", "why_tests_cant": "Unbounded histories and real values.", "anchors": ["mushroom_rl/algorithms/value/td/q_learning.py:QLearning._update"]}
{"id": "C31", "title": "SARSA is on-policy: the action evaluated is the action executed", "statement": "In every run of SARSA in Core, when a step is not last the action executed at the next step is exactly the one whose value was used in the update's target; after a last step the next action is drawn anew.", "quantifier": "every environment, policy and history", "why_tests_cant": "The agent/core hand-off goes through a mutable field.", "anchors": ["mushroom_rl/algorithms/value/td/sarsa.py:SARSA._update", "mushroom_rl/core/agent.py:Agent.draw_action", "mushroom_rl/core/core.py:Core._reset"]}
{"id": "C32", "title": "Eligibility traces are reset at the start of every episode", "statement": "No update of SARSA(lambda)/Q(lambda) with trace credits a state-action pair that has not been visited in the current episode; within an episode the accumulating trace of a pair is the discounted count of its visits and the replacing trace stays in [0,1].", "quantifier": "every history", "why_tests_cant": "Unbounded histories.", "anchors": ["mushroom_rl/rl_utils/eligibility_trace.py", "mushroom_rl/algorithms/value/td/sarsa_lambda.py"]}
{"id": "C33", "title": "Generalised advantage estimation satisfies its definition in every episode", "statement": "compute_gae returns for every step t of every episode the sum over k of (gamma*lambda)^k delta_{t+k} up to the end of the episode, with delta = r + gamma*V(s')*(1-absorbing) - V(s), independent of other episodes; lambda=0 gives the one-step TD error.", "quantifier": "every dataset, gamma, lambda", "why_tests_cant": "Unbounded trajectories.", "anchors": ["mushroom_rl/rl_utils/value_functions.py:compute_gae"]}
{"id": "C34", "title": "Monte-Carlo advantage uses only the rewards of the same episode", "statement": "compute_advantage_montecarlo gives for every step the discounted return from that step to the end of its own episode (bootstrapped when truncated) minus V(s).", "quantifier": "every dataset", "why_tests_cant": "Only visible on datasets with several episodes where an end is not absorbing.", "anchors": ["mushroom_rl/rl_utils/value_functions.py:compute_advantage_montecarlo"]}
{"id": "C35", "title": "Running standardisation never divides by zero and keeps the exact running mean", "statement": "After any sequence of updates RunningStandardization's std is strictly positive; with the alpha floor inactive the mean is the exact average of the samples (with the prior sample 0).", "quantifier": "every sequence of samples and batches", "why_tests_cant": "Unbounded histories.", "anchors": ["mushroom_rl/rl_utils/running_stats.py:RunningStandardization"]}
{"id": "C36", "title": "Preprocessed observations stay in range and the environment state is untouched", "statement": "MinMaxPreprocessor can be built whenever a component is bounded; it maps every bounded component of an observation that respects the bounds affinely into [-1,1], standardises the unbounded components and clips them, and does not modify the array held by the environment.", "quantifier": "every observation and bound configuration", "why_tests_cant": "Aliasing with the environment's own state array.", "anchors": ["mushroom_rl/rl_utils/preprocessors.py:MinMaxPreprocessor"]}
{"id": "C37", "title": "Optimizers move in the requested direction by the requested amount and do not modify the gradient", "statement": "SGDOptimizer/AdaptiveOptimizer steps move the parameters by +/- step*gradient with the sign given by maximize; the adaptive step has Mahalanobis length sqrt(eps); the caller's gradient array is left unchanged.", "quantifier": "every parameter vector and gradient", "why_tests_cant": "Real-valued, aliasing.", "anchors": ["mushroom_rl/rl_utils/optimizers.py"]}
{"id": "C38", "title": "Angle normalisation", "statement": "normalize_angle returns the unique equivalent angle in (-pi,pi] and is idempotent, normalize_angle_positive the one in [0,2pi); shortest_angular_distance lies in (-pi,pi], no equivalent rotation is shorter, and it takes the first angle to the second modulo 2*pi.", "quantifier": "every real angle", "why_tests_cant": "All reals.", "anchors": ["mushroom_rl/utils/angles.py"]}
{"id": "C39", "title": "Minibatches partition the dataset", "statement": "minibatch_generator yields every sample index exactly once per pass, in ceil(n/batch) batches all of the requested size except possibly the last.", "quantifier": "every dataset size, batch size and shuffle", "why_tests_cant": "All sizes and permutations.", "anchors": ["mushroom_rl/utils/minibatches.py:minibatch_generator"]}
{"id": "C40", "title": "Weights can be read and written back", "statement": "For every regressor (linear, action-indexed, ensembles of parameters in torch policies), set_weights(get_weights()) is the identity, get_weights after set_weights(w) returns w for every w of the right size, whatever the caller does with w later, and the slice belonging to one action is changed only through that slice.", "quantifier": "every weight vector and shape", "why_tests_cant": "All shapes.", "anchors": ["mushroom_rl/approximators/_implementations/action_regressor.py:ActionRegressor", "mushroom_rl/approximators/parametric/linear.py:LinearApproximator", "mushroom_rl/utils/torch.py:TorchUtils"]}
{"id": "C41", "title": "Value iteration is correct", "statement": "value_iteration stops after finitely many sweeps for gamma<1 and returns a value function whose max-norm distance to the optimal value function is at most gamma*eps/(1-gamma).", "quantifier": "every finite MDP, gamma in [0,1), eps>0", "why_tests_cant": "All MDPs.", "anchors": ["mushroom_rl/solvers/dynamic_programming.py:value_iteration"]}
{"id": "C42", "title": "Policy iteration is correct", "statement": "policy_iteration produces a sequence of policies with non-decreasing value, and when it stops the returned value function satisfies the Bellman optimality equation and the returned policy is greedy with respect to it.", "quantifier": "every finite MDP, gamma in [0,1)", "why_tests_cant": "All MDPs.", "anchors": ["mushroom_rl/solvers/dynamic_programming.py:policy_iteration"]}
{"id": "C43", "title": "LQR solver is consistent", "statement": "The value function returned for a gain satisfies the Bellman equation of the feedback a=-Ks, the action value is the reward plus the discounted value of the next state and equals V(s) at a=-Ks, the gain computed from a value function gives the one action with the largest action value, after k rounds the Riccati recursion gives the best k-step return, and the values of the gaussian policy satisfy its Bellman equations in expectation.", "quantifier": "every system, gain and state", "why_tests_cant": "Real-valued.", "anchors": ["mushroom_rl/solvers/lqr.py"]}
{"id": "C44", "title": "Car-on-hill reference values come from a shortest path", "statement": "The breadth-first solver returns the minimal number of steps to a terminal state over all action sequences up to the search depth, and the value has the sign and discount of that terminal reward.", "quantifier": "every state and every deterministic dynamics", "why_tests_cant": "All states and depths.", "anchors": ["mushroom_rl/solvers/car_on_hill.py"]}
{"id": "C45", "title": "Grid worlds stay inside the grid", "statement": "For every sequence of actions the state of GridWorld/GridWorldVanHasselt is a valid cell index, conversion between cell coordinates and state index is a bijection, reward and absorbing flag are given exactly on the goal.", "quantifier": "every grid size, start, goal and action sequence", "why_tests_cant": "Unbounded sequences.", "anchors": ["mushroom_rl/environments/grid_world.py"]}
{"id": "C46", "title": "FiniteMDP simulates its tables", "statement": "FiniteMDP reports absorbing exactly when the reached state has no outgoing probability, and only reaches states with positive probability.", "quantifier": "every table with stochastic or zero rows and every action sequence", "why_tests_cant": "All tables.", "anchors": ["mushroom_rl/environments/finite_mdp.py:FiniteMDP.step"]}
{"id": "C47", "title": "Generated MDPs are well formed", "statement": "The generators (simple chain, grid world, taxi) give transition matrices whose rows are probability distributions (or all zero for terminal states), initial distributions that sum to 1, and rewards only on the documented transitions.", "quantifier": "every size, probability in [0,1], goal list and map", "why_tests_cant": "All sizes and maps.", "anchors": ["mushroom_rl/environments/generators/simple_chain.py", "mushroom_rl/environments/generators/grid_world.py", "mushroom_rl/environments/generators/taxi.py"]}
{"id": "C48", "title": "Every line of a map file is used", "statement": "generate_grid_world uses every row of the map file.", "quantifier": "every map, with or without a newline at the end of file", "why_tests_cant": "Depends on the last byte of the file.", "anchors": ["mushroom_rl/environments/generators/grid_world.py:parse_grid"]}
{"id": "C49", "title": "Tile coding activates exactly one tile per covering tiling", "statement": "For every point covered by a tiling exactly one of its features is 1, the index is in range and is determined by and determines the tile coordinates; points outside activate none; with tilings built by Tiles.generate every point of [low,high) is covered by every tiling.", "quantifier": "every point, number of tiles, dimensions", "why_tests_cant": "Real-valued index arithmetic.", "anchors": ["mushroom_rl/features/tiles/tiles.py:Tiles", "mushroom_rl/features/_implementations/tiles_features.py:TilesFeatures"]}
{"id": "C50", "title": "State-action features are block one-hot", "statement": "get_action_features(phi,a,n) places phi(s) in block a and zeros elsewhere, so a linear Q function with them equals n independent linear functions.", "quantifier": "every feature vector, action and number of actions", "why_tests_cant": "All shapes.", "anchors": ["mushroom_rl/features/features.py:get_action_features"]}
{"id": "C51", "title": "Fourier and polynomial bases enumerate each multi-index exactly once", "statement": "FourierBasis.generate(n) creates exactly one feature for every integer vector in {0..n}^d and PolynomialBasis.generate(max_degree) exactly one for every exponent vector of degree at most max_degree. The Fourier features are the documented cosines of the selected dimensions, between minus one and one, and linearly independent on the box between the bounds.", "quantifier": "every dimension and order", "why_tests_cant": "All dimensions.", "anchors": ["mushroom_rl/features/basis/fourier.py", "mushroom_rl/features/basis/polynomial.py"]}
{"id": "C52", "title": "Target network synchronisation schedule", "statement": "In DQN the target network after k fits equals the online network as it was at the most recent fit whose number is a multiple of target_update_frequency (the initial network before that); AveragedDQN's ensemble holds the most recent min(m+1,n) such snapshots.", "quantifier": "every number of fits, frequency and ensemble size", "why_tests_cant": "Unbounded schedules.", "anchors": ["mushroom_rl/algorithms/value/dqn/abstract_dqn.py:AbstractDQN", "mushroom_rl/algorithms/value/dqn/averaged_dqn.py:AveragedDQN"]}
{"id": "C53", "title": "Categorical projection preserves probability mass and mean", "statement": "The projection used by CategoricalDQN/Rainbow writes only inside the support, keeps total probability, keeps entries nonnegative and preserves the mean of the clipped target atoms.", "quantifier": "every distribution, reward, gamma and support", "why_tests_cant": "Real-valued; edge cases at atom boundaries.", "anchors": ["mushroom_rl/algorithms/value/dqn/categorical_dqn.py:CategoricalDQN"]}
{"id": "C54", "title": "Deep target updates are convex combinations", "statement": "Soft target updates keep each target weight between old target and online weight, and after k updates with fixed online weights the difference is (1-tau)^k times the initial one; targets of absorbing transitions are exactly the reward.", "quantifier": "every tau in [0,1], number of updates and weights", "why_tests_cant": "Unbounded histories.", "anchors": ["mushroom_rl/algorithms/actor_critic/deep_actor_critic/deep_actor_critic.py:DeepAC", "mushroom_rl/algorithms/actor_critic/deep_actor_critic/ddpg.py:DDPG"]}
{"id": "C55", "title": "Boosted FQI sums to the last Bellman target", "statement": "After k iterations the sum of the residual targets fitted by BoostedFQI equals the last Bellman target.", "quantifier": "every number of iterations and dataset", "why_tests_cant": "Unbounded iterations.", "anchors": ["mushroom_rl/algorithms/value/batch_td/boosted_fqi.py:BoostedFQI"]}
{"id": "C56", "title": "Batch value methods do not bootstrap from absorbing states", "statement": "In FQI, DoubleFQI and LSPI the target of a transition into an absorbing state does not depend on the value of the next state.", "quantifier": "every dataset and regressor", "why_tests_cant": "Only transitions flagged absorbing show it.", "anchors": ["mushroom_rl/algorithms/value/batch_td/fqi.py:FQI", "mushroom_rl/algorithms/value/batch_td/lspi.py:LSPI"]}
{"id": "C57", "title": "Policy gradient estimates depend only on the data of the current fit", "statement": "The gradient computed by REINFORCE, GPOMDP and eNAC for a batch of complete episodes depends only on that batch and not on earlier fits.", "quantifier": "every history of fits", "why_tests_cant": "Depends on leftovers of earlier datasets.", "anchors": ["mushroom_rl/algorithms/policy_search/policy_gradient/policy_gradient.py:PolicyGradient", "mushroom_rl/algorithms/policy_search/policy_gradient/gpomdp.py:GPOMDP"]}
{"id": "C58", "title": "Search distributions can be read and written back, and weighted MLE is exact", "statement": "set_parameters/get_parameters are inverse to each other for the Gaussian, diagonal and Cholesky distributions, and mle with weights gives the weighted mean and a nonnegative (unbiased) variance.", "quantifier": "every parameter vector, every weighting", "why_tests_cant": "Real-valued.", "anchors": ["mushroom_rl/distributions/gaussian.py"]}
{"id": "C59", "title": "Conjugate gradient in TRPO", "statement": "TRPO's conjugate-gradient routine computes the conjugate-gradient iterates of the linear system (so that it solves an n-dimensional positive definite system in n iterations) and leaves its right-hand side argument unchanged.", "quantifier": "every positive definite system", "why_tests_cant": "Aliasing between tensors is only visible after the first iteration.", "anchors": ["mushroom_rl/algorithms/actor_critic/deep_actor_critic/trpo.py:TRPO._conjugate_gradient"]}
{"id": "C60", "title": "TRPO line search is safe", "statement": "After TRPO's line search the policy either satisfies the KL bound and does not worsen the surrogate, or is restored to the old parameters.", "quantifier": "every loss and KL landscape", "why_tests_cant": "All functions.", "anchors": ["mushroom_rl/algorithms/actor_critic/deep_actor_critic/trpo.py:TRPO._line_search"]}
{"id": "C61", "title": "The clipped surrogate objective is a pessimistic bound", "statement": "The per-sample objective maximised by PPO never exceeds the unclipped surrogate (probability ratio times advantage), equals it when the ratio lies within the clipping range, and does not change with the ratio once the ratio has left the range in the direction that improves the surrogate.", "quantifier": "every ratio, advantage and clipping range", "why_tests_cant": "Continuous ranges.", "anchors": ["mushroom_rl/algorithms/actor_critic/deep_actor_critic/ppo.py:PPO"]}
{"id": "C62", "title": "Recorded statistics windows and the best agent", "statement": "DataBuffer always holds the most recent `length` values appended while tracking was enabled; log_best_agent always leaves on disk the last agent with the highest J so far.", "quantifier": "every sequence of calls", "why_tests_cant": "Unbounded histories.", "anchors": ["mushroom_rl/utils/plots/databuffer.py:DataBuffer", "mushroom_rl/core/logger/data_logger.py:DataLogger"]}
{"id": "C63", "title": "Observation helper indices stay aligned with the built observation", "statement": "After any sequence of remove_obs calls the index map of ObservationHelper points, for every key, exactly at the entries of the observation it builds.", "quantifier": "every sequence of removals", "why_tests_cant": "Depends on the order of the removals.", "anchors": ["mushroom_rl/utils/mujoco/observation_helper.py:ObservationHelper.remove_obs"]}
{"id": "C64", "title": "Multiprocess environments answer each command exactly once and only for selected environments", "statement": "In MultiprocessEnvironment every reset_all/step_all call sends one command to each selected worker and reads exactly one answer from it, so answers can never be attributed to another call, and unselected environments keep their state.", "quantifier": "every sequence of calls, masks and every scheduling of the workers", "why_tests_cant": "All interleavings.", "anchors": ["mushroom_rl/core/multiprocess_environment.py:MultiprocessEnvironment"]}
{"id": "C65", "title": "Environment dynamics respect their declared bounds", "statement": "For every action sequence the states of PuddleWorld, ShipSteering and LQR (with bounds) stay in the declared observation space, and the reward / absorbing flags are as documented.", "quantifier": "every action sequence, including out-of-range actions", "why_tests_cant": "Unbounded sequences.", "anchors": ["mushroom_rl/environments/puddle_world.py", "mushroom_rl/environments/ship_steering.py", "mushroom_rl/environments/lqr.py"]}
{"id": "C66", "title": "Who decides the executed action", "statement": "At every step of every run, the executed action is the one left by the last fit in the same episode if there is one, otherwise the policy is asked in the current (agent-preprocessed) state; an action left by a fit is executed at most once and is never carried over into a new episode or a new run.", "quantifier": "every environment, policy, learning rule and history", "why_tests_cant": "The hand-off goes through a mutable attribute shared by agent and core; only an invariant over all histories excludes stale actions.", "anchors": ["mushroom_rl/core/agent.py:Agent.draw_action", "mushroom_rl/core/core.py:Core._reset", "mushroom_rl/core/core.py:Core._run"]}
{"id": "C67", "title": "Episodic agents receive the policy parameters of their episodes", "statement": "For an episodic (black-box) agent the theta list of the dataset given to each fit consists of the parameters drawn at the starts of the episodes begun since the previous fit, in order; with n_episodes_per_fit=k there are exactly k of them, one for each episode of the batch.", "quantifier": "every environment and history", "why_tests_cant": "Alignment between two lists that are filled at different moments.", "anchors": ["mushroom_rl/core/core.py:Core._run", "mushroom_rl/core/dataset.py:Dataset.append_theta", "mushroom_rl/core/dataset.py:Dataset.clear"]}
{"id": "C68", "title": "Callbacks see every interaction and every fit exactly once", "statement": "In every run the step callback is invoked exactly once per interaction, in order, with exactly the stored sample; each fit callback is invoked exactly once per fit, after it, with the dataset that was given to the fit (before it is cleared). The callbacks are invoked at no other moment.", "quantifier": "every run, environment, agent and callback list", "why_tests_cant": "Callbacks are user code that only observes; a missed or repeated notification shows only on some histories.", "anchors": ["mushroom_rl/core/core.py:Core._run", "mushroom_rl/core/core.py:Core.__init__"]}
{"id": "C69", "title": "List-backed and array-backed datasets agree", "statement": "A Dataset stored in a Python list (the list backend) reports the same n_episodes and gives the same result for d1 + d2 as the array-backed one with the same transitions.", "quantifier": "every list of transitions, flags given as Python or numpy booleans", "why_tests_cant": "Depends on the representation of the flags, which varies by environment.", "anchors": ["mushroom_rl/core/_impl/list_dataset.py:ListDataset"]}
{"id": "C70", "title": "Vectorized episodes continue where they are", "statement": "In every VectorCore run, an environment that made a step which is not the last of its episode makes a step in the next iteration too, starting from the state in which the previous step ended; fits in between do not interrupt it.", "quantifier": "every number of environments, fit frequency, environment and policy", "why_tests_cant": "Masks, resets and fits interleave differently for every pattern of episode lengths.", "anchors": ["mushroom_rl/core/vectorized_core.py:VectorCore._run", "mushroom_rl/core/_impl/vectorized_core_logic.py:VectorizedCoreLogic.get_mask"]}
{"id": "C71", "title": "Asking a policy for probabilities does not change it", "statement": "Evaluating a value-based policy at a state, without drawing an action, leaves the policy as it was: asking again gives the same answer and later draws are not affected.", "quantifier": "every action values, state and exploration schedule", "why_tests_cant": "Schedules and histories are unbounded; the effect shows up only with a scheduled parameter.", "anchors": ["mushroom_rl/policy/td_policy.py:EpsGreedy.__call__", "mushroom_rl/policy/td_policy.py:Boltzmann.__call__"]}
{"id": "C72", "title": "Variance-dependent learning rates are kept per cell and stay in range", "statement": "The learning rate computed by a VarianceIncreasingParameter or WindowedVarianceIncreasingParameter for a state-action pair depends only on the targets seen for that pair, and it is always in [0, 1].", "quantifier": "every sequence of updates of every cell", "why_tests_cant": "Every interleaving of updates of different cells.", "anchors": ["mushroom_rl/rl_utils/variance_parameters.py:VarianceParameter", "mushroom_rl/rl_utils/variance_parameters.py:VarianceIncreasingParameter"]}
{"id": "C73", "title": "RQ-learning decomposes the action value consistently", "statement": "RQLearning keeps Q = R + gamma * V' per pair, where R averages the rewards and V' averages the values of the next states of all the transitions of the pair, absorbing next states counting zero; an update changes nothing else.", "quantifier": "every table, transition and rates", "why_tests_cant": "All tables and histories.", "anchors": ["mushroom_rl/algorithms/value/td/rq_learning.py:RQLearning._update"]}
{"id": "C74", "title": "What eligibility traces compute", "statement": "TrueOnlineSARSALambda has, after every step of an episode, exactly the weights of the online lambda-return algorithm (which goes through the visited pairs in order and moves each towards its lambda-return truncated at the present), and the trace of SARSALambdaContinuous is the discounted sum of the visited features. With lambda = 0, SARSALambda does exactly what SARSA does and QLambda what QLearning does, and the linear TrueOnlineSARSALambda and SARSALambdaContinuous make the one-step semi-gradient update; the first update of an episode does not depend on lambda.", "quantifier": "every table, weights, features, transition and history", "why_tests_cant": "All tables and histories.", "anchors": ["mushroom_rl/algorithms/value/td/sarsa_lambda.py:SARSALambda", "mushroom_rl/algorithms/value/td/q_lambda.py:QLambda", "mushroom_rl/algorithms/value/td/true_online_sarsa_lambda.py:TrueOnlineSARSALambda", "mushroom_rl/algorithms/value/td/sarsa_lambda_continuous.py:SARSALambdaContinuous"]}
{"id": "C75", "title": "The value targets of GAE are lambda-returns", "statement": "For every lambda the value target returned by compute_gae is the average of the n-step returns with weights (1-lambda)lambda^(n-1), the return of the whole rest of the trajectory taking the remaining weight; lambda = 1 gives the discounted return of the rest of the trajectory, bootstrapped unless its end is absorbing.", "quantifier": "every dataset, gamma, lambda", "why_tests_cant": "Unbounded trajectories.", "anchors": ["mushroom_rl/rl_utils/value_functions.py:compute_gae"]}
{"id": "C76", "title": "Recurrent training sequences never cross a trajectory boundary", "statement": "The sequence on which PPO_BPTT trains for a step consists of the last at most truncation_length steps of the trajectory of that step up to it, zero-padded, starting from the policy state stored for its first step.", "quantifier": "every dataset, truncation length and step", "why_tests_cant": "All placements of trajectory ends.", "anchors": ["mushroom_rl/algorithms/actor_critic/deep_actor_critic/ppo_bptt.py:PPO_BPTT._transform_to_sequences"]}
{"id": "C77", "title": "Running statistics do not depend on batching", "statement": "RunningStandardization gives the same mean and standard deviation whether the samples are given one at a time or in batches, and they are the statistics of the samples.", "quantifier": "every sequence of samples and grouping in batches", "why_tests_cant": "All groupings.", "anchors": ["mushroom_rl/rl_utils/running_stats.py:RunningStandardization.update_stats"]}
{"id": "C78", "title": "Exponential and windowed averages have their defining weights", "statement": "RunningExpWeightedAverage gives the k-th most recent sample the weight alpha(1-alpha)^k, and RunningAveragedWindow averages exactly the last window_size values (the initial value counting as the first), however the samples are batched.", "quantifier": "every sequence of samples, grouping, rate and window size", "why_tests_cant": "Unbounded histories.", "anchors": ["mushroom_rl/rl_utils/running_stats.py:RunningExpWeightedAverage", "mushroom_rl/rl_utils/running_stats.py:RunningAveragedWindow"]}
{"id": "C79", "title": "Adam steps are ratios of true averages", "statement": "Each AdamOptimizer step moves a parameter by the learning rate times the exponentially weighted average of its gradients over the root of the average of their squares plus eps, with weights that sum to one from the first step on.", "quantifier": "every history of gradients", "why_tests_cant": "Unbounded histories.", "anchors": ["mushroom_rl/rl_utils/optimizers.py:AdamOptimizer"]}
{"id": "C80", "title": "Numerical gradients", "statement": "numerical_diff_function returns the exact partial derivatives of every function that is at most quadratic in each parameter; numerical_diff_policy and numerical_diff_dist return the finite-difference quotients of the policy and leave its weights as they were.", "quantifier": "every function, parameters, policy and step size", "why_tests_cant": "Continuous ranges.", "anchors": ["mushroom_rl/utils/numerical_gradient.py:numerical_diff_function", "mushroom_rl/utils/numerical_gradient.py:numerical_diff_policy"]}
{"id": "C81", "title": "Values of single actions agree with the full prediction", "statement": "For a Q-function regressor, predict(state, action) returns for every row of the batch the entry of its action in predict(state); fitting a regressor with one model per action gives each model exactly the rows of its action, in order, and does not touch the models of actions that do not occur.", "quantifier": "every batch, number of actions and model", "why_tests_cant": "All batches.", "anchors": ["mushroom_rl/approximators/_implementations/action_regressor.py:ActionRegressor", "mushroom_rl/approximators/_implementations/q_regressor.py:QRegressor"]}
{"id": "C82", "title": "Linear regression is least squares", "statement": "LinearApproximator.fit finds, for every output, weights whose sum of squared errors on the data is not larger than that of any other weights.", "quantifier": "every data set and alternative weights", "why_tests_cant": "Minimality over a continuum.", "anchors": ["mushroom_rl/approximators/parametric/linear.py:LinearApproximator.fit"]}
{"id": "C83", "title": "diff is the derivative with respect to the weights", "statement": "For linear regressors (plain, one per action, tile coding) adding a vector to the weights changes the prediction by its product with diff.", "quantifier": "every input, weights and change of the weights", "why_tests_cant": "Continuous ranges and all shapes.", "anchors": ["mushroom_rl/approximators/parametric/linear.py:LinearApproximator.diff", "mushroom_rl/approximators/_implementations/action_regressor.py:ActionRegressor.diff", "mushroom_rl/approximators/parametric/cmac.py:CMAC.diff"]}
{"id": "C84", "title": "Tile-coding regression", "statement": "CMAC predicts the product of weights and tile features. A fit with learning rate 1 on one sample makes the prediction equal to the target; on a batch with common residual every prediction moves by learning rate times residual; inputs that share no tile with the data keep their prediction.", "quantifier": "every tilings, weights and batch", "why_tests_cant": "All batches and inputs.", "anchors": ["mushroom_rl/approximators/parametric/cmac.py:CMAC"]}
{"id": "C85", "title": "Ensemble predictions", "statement": "The prediction of an Ensemble is the mean, sum, minimum or maximum of those of its models, so min <= mean <= max; fitting with an index changes that model only.", "quantifier": "every number of models and predictions", "why_tests_cant": "All sizes.", "anchors": ["mushroom_rl/approximators/ensemble.py:Ensemble"]}
{"id": "C86", "title": "LQR policy gradients are the gradients of the values", "statement": "compute_lqr_V_gaussian_policy_gradient_K and compute_lqr_Q_gaussian_policy_gradient_K return, for every state of the batch, the partial derivatives of the corresponding value with respect to every entry of the gain.", "quantifier": "every system, gain with a defined value, covariance and batch of states", "why_tests_cant": "Derivatives over all real matrices.", "anchors": ["mushroom_rl/solvers/lqr.py:compute_lqr_V_gaussian_policy_gradient_K", "mushroom_rl/solvers/lqr.py:compute_lqr_Q_gaussian_policy_gradient_K"]}
{"id": "C87", "title": "ShipSteering detects the gate", "statement": "A movement of the ship that stays inside the field ends the episode with success exactly if the segment travelled meets the gate.", "quantifier": "every start and end point of a movement", "why_tests_cant": "Continuous geometry.", "anchors": ["mushroom_rl/environments/ship_steering.py:ShipSteering._through_gate"]}
{"id": "C88", "title": "Mechanical environments integrate the stated physics", "statement": "The vector fields given to the integrator are the equations of motion of the systems: on the hill and for the pendulum the energy changes exactly by the power of the control minus friction, cart-pole and segway accelerations are the unique solutions of the equations of Newton and Euler, and the slope and curvature used on the hill are the derivatives of the rendered hill.", "quantifier": "every state, control and parameter", "why_tests_cant": "Identities between real functions.", "anchors": ["mushroom_rl/environments/car_on_hill.py:CarOnHill._dpds", "mushroom_rl/environments/inverted_pendulum.py:InvertedPendulum._dynamics", "mushroom_rl/environments/cart_pole.py:CartPole._dynamics", "mushroom_rl/environments/segway.py:Segway._dynamics"]}
{"id": "C89", "title": "Targets, networks and losses of the deep Q-learning agents", "statement": "The target of a transition is its (optionally clipped) reward plus, unless it is absorbing, the discounted value of the next state: the maximum of the target network (DQN), the target value of the online greedy action (DoubleDQN), the maximum of the mean (AveragedDQN) or minimum (MaxminDQN) of the ensemble, or the quantiles of the best action (QuantileDQN). DoubleDQN and MaxminDQN never exceed DQN; clipped rewards keep targets in the range of discounted returns. A dueling network averages (or maximises) to its state value. The quantile levels used by an agent are the midpoints of its own number of intervals.", "quantifier": "every batch, network, discount and ensemble size", "why_tests_cant": "Arbitrary networks; batches that mix absorbing and other transitions.", "anchors": ["mushroom_rl/algorithms/value/dqn/dqn.py:DQN._next_q", "mushroom_rl/algorithms/value/dqn/double_dqn.py:DoubleDQN._next_q", "mushroom_rl/algorithms/value/dqn/averaged_dqn.py:AveragedDQN._next_q", "mushroom_rl/algorithms/value/dqn/maxmin_dqn.py:MaxminDQN", "mushroom_rl/algorithms/value/dqn/quantile_dqn.py:QuantileDQN.fit", "mushroom_rl/algorithms/value/dqn/dueling_dqn.py:DuelingNetwork"]}
{"id": "C90", "title": "Fitted Q-iteration is value iteration up to the error of the regressor", "statement": "If the dataset contains every transition of a deterministic problem and the regressor can represent every function on it, then after k iterations of FQI the predictions differ from the optimal action values by at most gamma^k times their bound. If each fit is only within eps of its targets, the errors do not accumulate beyond eps (1 + gamma + ... + gamma^(k-1)). An agent that acts greedily on the predictions then collects a discounted return that is below the optimal value by at most 2 / (1 - gamma) times this bound, up to the discounted value of the steps not yet made.", "quantifier": "every deterministic problem, number of iterations, error of the regressor and greedy policy", "why_tests_cant": "Unbounded number of iterations and arbitrary problems.", "anchors": ["mushroom_rl/algorithms/value/batch_td/fqi.py:FQI.fit"]}
{"id": "C91", "title": "The policy of SAC respects the action space and reports the log-probability of its actions", "statement": "Every action drawn by SACPolicy lies strictly inside the action bounds, every action inside the bounds can be drawn, its standard deviation stays within the configured bounds, the log-probability returned with an action is that of the action, and the temperature loss pushes the temperature up exactly when the entropy is below the target.", "quantifier": "every network output, noise sample, action space and batch", "why_tests_cant": "Continuous ranges; the log-probability involves a change of variables.", "anchors": ["mushroom_rl/algorithms/actor_critic/deep_actor_critic/sac.py:SACPolicy.compute_action_and_log_prob_t", "mushroom_rl/algorithms/actor_critic/deep_actor_critic/sac.py:SAC._update_alpha"]}
{"id": "C92", "title": "Advantages are standardised", "statement": "For every batch PPO and TRPO replace the advantages by values with mean zero and sample variance at most one, in the same order, and equal advantages by zero.", "quantifier": "every non-empty batch of advantages", "why_tests_cant": "All batches, including degenerate ones.", "anchors": ["mushroom_rl/algorithms/actor_critic/deep_actor_critic/ppo.py:PPO.fit", "mushroom_rl/algorithms/actor_critic/deep_actor_critic/trpo.py:TRPO.fit"]}
{"id": "C93", "title": "Classic actor-critic updates follow the TD error", "statement": "StochasticAC moves its value function and policy along eligibility traces in proportion to the TD error, the traces being the discounted sums of features and scores of the current episode only; COPDAC-Q moves its actor along the gradient of its critic at the action of the actor, and its critic towards the target; nothing is bootstrapped after absorbing transitions.", "quantifier": "every sequence of transitions and episodes, every differentiable actor", "why_tests_cant": "Unbounded histories; gradients.", "anchors": ["mushroom_rl/algorithms/actor_critic/classic_actor_critic/stochastic_ac.py:StochasticAC", "mushroom_rl/algorithms/actor_critic/classic_actor_critic/stochastic_ac.py:StochasticAC_AVG", "mushroom_rl/algorithms/actor_critic/classic_actor_critic/copdac_q.py:COPDAC_Q"]}
{"id": "C94", "title": "Policy gradient estimators are unbiased with an optimal baseline", "statement": "For every finite decision process and differentiable stochastic policy the expectation of the REINFORCE (episode) and GPOMDP (step) estimators is the gradient of the expected discounted return, and the gradients that the agents compute from n independent episodes, with baselines from the same episodes, converge to it almost surely as n grows; the baselines minimise the empirical second moment of the estimate in each component; eNAC returns a least squares solution of its regression, which converges to the natural gradient.", "quantifier": "every finite horizon process, policy, dataset and component", "why_tests_cant": "Expectations over all trajectories and optimality over all baselines.", "anchors": ["mushroom_rl/algorithms/policy_search/policy_gradient/reinforce.py:REINFORCE", "mushroom_rl/algorithms/policy_search/policy_gradient/gpomdp.py:GPOMDP", "mushroom_rl/algorithms/policy_search/policy_gradient/enac.py:eNAC"]}
{"id": "C95", "title": "diff and diff_log are the derivatives of the (log-)densities", "statement": "For the Gaussian policies and distributions of the library diff_log returns, for every component, the partial derivative of the logarithm of the density with respect to that parameter, in the order of get_weights/get_parameters; set_weights followed by get_weights returns the weights.", "quantifier": "every parameter, state, action and sample with a defined density", "why_tests_cant": "Derivatives over all real parameters.", "anchors": ["mushroom_rl/policy/gaussian_policy.py:GaussianPolicy.diff_log", "mushroom_rl/policy/gaussian_policy.py:DiagonalGaussianPolicy.diff_log", "mushroom_rl/policy/gaussian_policy.py:StateStdGaussianPolicy.diff_log", "mushroom_rl/policy/gaussian_policy.py:StateLogStdGaussianPolicy.diff_log", "mushroom_rl/distributions/gaussian.py:GaussianDiagonalDistribution.diff_log", "mushroom_rl/distributions/gaussian.py:GaussianCholeskyDistribution.diff_log"]}
{"id": "C96", "title": "Constrained weighted maximum likelihood", "statement": "con_wmle of the Gaussian distributions maximises, for the multipliers it uses, the weighted log-likelihood penalised by the divergence from the previous distribution and the loss of entropy; if the multipliers satisfy complementary slackness the new distribution is the best of those within the bounds. The divergence it uses is the Kullback-Leibler divergence of the Gaussians and is never negative.", "quantifier": "every set of weighted samples, previous distribution and multipliers", "why_tests_cant": "Optimality over all means and covariances.", "anchors": ["mushroom_rl/distributions/gaussian.py:GaussianDistribution.con_wmle", "mushroom_rl/distributions/gaussian.py:GaussianDiagonalDistribution.con_wmle", "mushroom_rl/distributions/gaussian.py:GaussianCholeskyDistribution.con_wmle"]}
{"id": "C97", "title": "Black-box updates: REPS, RWR and PGPE", "statement": "REPS weights the episodes by the exponential of their return; the gradient it gives to the minimiser is that of its dual function, and at a stationary point the weights are the distribution over the episodes with the highest expected return among those within a divergence of eps from the uniform one, so that (as documented) the new search distribution stays within eps of the previous one. RWR is REPS with a fixed temperature. The new mean is the weighted mean of the parameters. The gradient of PGPE is the average score times the return minus the best baseline. A constant added to all the returns changes nothing.", "quantifier": "every list of returns and parameters, every multiplier, every distribution over the episodes", "why_tests_cant": "Optimality over all distributions and derivatives.", "anchors": ["mushroom_rl/algorithms/policy_search/black_box_optimization/reps.py:REPS", "mushroom_rl/algorithms/policy_search/black_box_optimization/rwr.py:RWR", "mushroom_rl/algorithms/policy_search/black_box_optimization/pgpe.py:PGPE", "mushroom_rl/algorithms/policy_search/black_box_optimization/constrained_reps.py:ConstrainedREPS"]}
{"id": "C98", "title": "Black-box updates: MORE", "statement": "The quadratic surrogate of MORE is the fitted quadratic model made concave. For all multipliers the new mean and covariance maximise the expected surrogate penalised by the divergence from the previous distribution and the entropy, the function minimised over the multipliers is this maximum, and with complementary slackness no Gaussian within the bounds has a higher expected surrogate.", "quantifier": "every surrogate, previous distribution, multipliers and Gaussian", "why_tests_cant": "Optimality over all means and covariances.", "anchors": ["mushroom_rl/algorithms/policy_search/black_box_optimization/more.py:MORE"]}
{"id": "C99", "title": "Black-box agents in parallel environments", "statement": "When episodes start in some of the environments a black-box agent draws new policy parameters for these and keeps the others; the parameters reported are the weights of the policies, deterministic agents use the mean, and each copy of a VectorPolicy acts on its own row with its own state. The number of copies follows the number of environments.", "quantifier": "every mask of starting environments, number of environments and policy", "why_tests_cant": "All masks and sizes.", "anchors": ["mushroom_rl/algorithms/policy_search/black_box_optimization/black_box_optimization.py:BlackBoxOptimization.episode_start_vectorized", "mushroom_rl/policy/vector_policy.py:VectorPolicy"]}
{"id": "C100", "title": "Extra information follows the steps", "statement": "After any sequence of appends, parses, additions and copies an ExtraInfo object gives, for every key ever appended, the values of the steps in the order in which they were appended, with nested dictionaries flattened to joined keys; parsing never loses a step, adding two objects concatenates their steps a copy equals its original, and what is done to a view does not change the object it was taken from.", "quantifier": "every sequence of appended dictionaries (nested to any depth), parses, additions, copies and clears", "why_tests_cant": "All histories of operations and nestings.", "anchors": ["mushroom_rl/core/extra_info.py:ExtraInfo"]}
{"id": "C101", "title": "Exploration noise and deterministic policies", "statement": "An Ornstein-Uhlenbeck policy started by reset adds to the mean action the process that follows x' = x - theta x dt + sigma sqrt(dt) noise: its value after any number of steps is the decayed initial value plus the decayed sum of the noises, from the given initial value or zero, and with bounded noise it stays bounded for all time if theta dt is below two. If the random numbers are independent standard normal ones, the noise of every action is normal with the mean and variance of this recursion, which tend to those of the stationary process. Clipped Gaussian actions lie within the bounds and are the Gaussian action wherever this does; their law is the normal one with the mass outside the bounds moved to the bounds. A deterministic policy draws the mean and reports probability one for it and zero for all other actions.", "quantifier": "every sequence of states and noises of any length, every parameter", "why_tests_cant": "All histories of noise; the bound must hold for all time.", "anchors": ["mushroom_rl/policy/noise_policy.py:OrnsteinUhlenbeckPolicy", "mushroom_rl/policy/noise_policy.py:ClippedGaussianPolicy", "mushroom_rl/policy/deterministic_policy.py:DeterministicPolicy"]}
{"id": "C102", "title": "Movement primitives", "statement": "The phase of a ProMP goes from zero to one in duration steps and stays there (a periodic one goes on growing), set_duration(d) is the same as constructing it with d, and draw_action returns the action at the current phase. A DMP integrates a canonical system that does not depend on the learned weights and a transformation system attracted by the goal: the goal is an equilibrium for all weights, and without a forcing term a critically damped movement follows the closed form and converges to the goal. Actions that were returned do not change later. An agent can be constructed with any of these policies.", "quantifier": "every number of steps, duration, weights, goal and time constant", "why_tests_cant": "Convergence and closed forms for all numbers of steps.", "anchors": ["mushroom_rl/policy/promps.py:ProMP", "mushroom_rl/policy/dmp.py:DMP", "mushroom_rl/core/agent.py:Agent.__init__"]}
{"id": "C103", "title": "Atari wrappers", "statement": "After any sequence of calls that begins with reset, the state of an Atari environment is made of the last history_length frames of the current game, where the first frame counts history_length times. A step repeats the action on the skipped frames until the game is over, its reward is the sum of the rewards of these frames and its frame pools the last two. It is absorbing exactly if the game is over or, with ends_at_life, the number of lives has changed. reset starts a new game exactly if the last one is over, or at the first call or after stop. No reward of the game is lost, and the Gymnasium version behaves like the Gym version.", "quantifier": "every game, sequence of calls, number of no-op actions and frame skip", "why_tests_cant": "All games and histories of calls.", "anchors": ["mushroom_rl/environments/atari.py:Atari", "mushroom_rl/environments/atari.py:MaxAndSkip", "mushroom_rl/environments/gymnasium_atari.py:GymnasiumAtari", "mushroom_rl/utils/frames.py:LazyFrames"]}
{"id": "C104", "title": "MuJoCo environments", "statement": "A step gives the preprocessed action to the actuators of the specification and to no others. Without a _compute_action of its own the environment keeps these controls for all the intermediate steps; with one it computes them anew at each from the observation at that time. After any history, the reward of a step is that of the observation before it, the preprocessed action and the observation after it, and the absorbing flag is that of the observation after it. Every step advances the simulated time by dt. The action space has the bounds of the named actuators, and a collision is reported exactly if some contact joins the two groups. The collision force is that between the two groups.", "quantifier": "every dynamical system, overridden method, sequence of actions and list of contacts", "why_tests_cant": "All simulators and histories.", "anchors": ["mushroom_rl/environments/mujoco.py:MuJoCo.step", "mushroom_rl/environments/mujoco.py:MuJoCo.reset", "mushroom_rl/environments/mujoco.py:MuJoCo.get_action_indices", "mushroom_rl/environments/mujoco.py:MuJoCo.get_action_space", "mushroom_rl/environments/mujoco.py:MuJoCo._check_collision", "mushroom_rl/environments/mujoco.py:MuJoCo._get_collision_force"]}
{"id": "C105", "title": "Several MuJoCo models in one environment", "statement": "In a MultiMuJoCo environment every episode begins in the reset state of its model, whatever was done before; without random draws the models are used in turn. All the models have the same actuators, observation limits and time per step. reset returns what Core expects. The identifiers of the models are their indices in binary, as long as needed, and differ from each other.", "quantifier": "every list of models, history of calls, draws and number of models", "why_tests_cant": "All histories and numbers of models.", "anchors": ["mushroom_rl/environments/mujoco.py:MultiMuJoCo"]}
{"id": "C106", "title": "Time limits and initial states of wrapped environments", "statement": "An environment that wraps one of gym, gymnasium, dm_control, MiniGrid, iGibson or Habitat reports absorbing exactly when the task ends, never because a time limit of the wrapped library is reached at or before its horizon. The horizon is the given one, or that of the time limit. After reset(state) the environment continues from that state.", "quantifier": "every task, stack of wrappers, horizon and history of calls", "why_tests_cant": "All wrappers and histories.", "anchors": ["mushroom_rl/environments/gym_env.py:Gym", "mushroom_rl/environments/gymnasium_env.py:Gymnasium", "mushroom_rl/environments/dm_control_env.py:DMControl", "mushroom_rl/environments/minigrid_env.py:MiniGrid", "mushroom_rl/environments/igibson_env.py:iGibson", "mushroom_rl/environments/habitat_env.py:Habitat"]}
{"id": "C107", "title": "Shapes and contents of observations of wrapped environments", "statement": "Observations have the shape that the observation space declares and contain all the values of the wrapped environment, in order. The observation of MiniGrid consists of the last history_length frames, its rewards are 1 if positive, and with fixed_seed every reset gives the same environment.", "quantifier": "every specification, image size, history length and sequence of actions", "why_tests_cant": "All shapes and histories.", "anchors": ["mushroom_rl/environments/dm_control_env.py:DMControl", "mushroom_rl/environments/minigrid_env.py:MiniGrid", "mushroom_rl/environments/igibson_env.py:iGibson", "mushroom_rl/environments/habitat_env.py:Habitat", "mushroom_rl/utils/frames.py:LazyFrames"]}
{"id": "C108", "title": "The single interface and the initial states of vectorised environments", "statement": "reset and step of a vectorised environment act on the environment chosen with set_default_env and on no other, with an action or a state of that environment. reset_all(mask, states) resets every selected environment to its own state, and VectorCore.evaluate starts its episodes from the given initial states.", "quantifier": "every environment, number of copies, identifier, action and state", "why_tests_cant": "All identifiers and histories.", "anchors": ["mushroom_rl/core/vectorized_env.py:VectorizedEnvironment", "mushroom_rl/core/multiprocess_environment.py:MultiprocessEnvironment", "mushroom_rl/core/_impl/vectorized_core_logic.py:VectorCoreLogic.get_initial_state"]}
{"id": "C109", "title": "Spaces and the registry of environments", "statement": "A Box has bounds of its shape, rejects bounds and shapes that do not match, and is the same after it was saved and loaded. A Discrete space has the values below n. Environment._bound gives values between the bounds and leaves such values alone. Environment.make uses the class registered first under the name before the first point, its generator if there is one, with the other parts of the name before the other arguments.", "quantifier": "every bound, shape, list of registrations, name and arguments", "why_tests_cant": "All shapes, names and orders of registration.", "anchors": ["mushroom_rl/rl_utils/spaces.py:Box", "mushroom_rl/rl_utils/spaces.py:Discrete", "mushroom_rl/core/environment.py:Environment.make", "mushroom_rl/core/environment.py:Environment.register", "mushroom_rl/core/environment.py:MDPInfo"]}
{"id": "C110", "title": "PyBullet environments", "statement": "An observation consists of the values of the entries of the observation specification in its order; get_sim_state and the joints helper find the values of every entry in every observation, and the limits of an entry are those of its joint. Every entry of the actuation specification controls its own joint with the component of the action of the same number, and no other joint is controlled. A contact flag is set exactly if the two links touch. A step advances the simulation by the intermediate steps, and reward and absorbing flag are those of the transition; an episode begins in the initial state of the simulator.", "quantifier": "every set of models, specification, simulator state, action, set of contacts and history of calls", "why_tests_cant": "All specifications and histories.", "anchors": ["mushroom_rl/environments/pybullet.py:PyBullet", "mushroom_rl/utils/pybullet/index_map.py:IndexMap", "mushroom_rl/utils/pybullet/joints_helper.py:JointsHelper", "mushroom_rl/utils/pybullet/contacts.py:ContactHelper"]}
{"id": "C111", "title": "Fitting torch approximators", "statement": "fit trains on the first validation_split share of the samples, rounded up, and validates on the rest, and rejects shares outside (0, 1]. In every epoch every training sample is used in exactly one batch of at most batch_size samples. Without epsilon there are exactly n_epochs epochs. With epsilon training ends as soon as patience epochs in a row have not improved the loss by more than epsilon, or at n_epochs, and not before; it always ends if the loss is not negative. loss_fit is the training loss of the last epoch. Equal sample weights are as no weights. With reinitialize the result does not depend on the weights before. A rejected call changes nothing.", "quantifier": "every network, loss, optimiser, dataset, shuffling, setting and history", "why_tests_cant": "All losses over unboundedly many epochs, all datasets and shufflings.", "anchors": ["mushroom_rl/approximators/parametric/torch_approximator.py:TorchApproximator.fit", "mushroom_rl/utils/minibatches.py:minibatch_generator"]}
{"id": "C112", "title": "Torch policies and torch distributions are the distributions they claim to be", "statement": "In every state the log-probabilities of a Gaussian torch policy are the logarithms of a probability density whose mean is the output of the network and whose covariance is given by the standard deviations of the policy; entropy is the entropy of this density. The same holds for recurrent Gaussian policies and for the diagonal and Cholesky torch distributions, with the mean and covariance they are built with. Weights and parameters that are written are read back. Boltzmann policies give positive probabilities that sum to one, ordered as the logits; their entropy lies between zero and the logarithm of the number of actions. Policies return one action for each state.", "quantifier": "every network, state, action, weight vector, standard deviation and number of states", "why_tests_cant": "Densities range over all actions and their integrals over all of the action space; tests sample a few.", "anchors": ["mushroom_rl/policy/torch_policy.py:GaussianTorchPolicy", "mushroom_rl/policy/torch_policy.py:BoltzmannTorchPolicy", "mushroom_rl/policy/recurrent_torch_policy.py:RecurrentGaussianTorchPolicy", "mushroom_rl/distributions/torch_distribution.py:DiagonalGaussianTorchDistribution", "mushroom_rl/distributions/torch_distribution.py:CholeskyGaussianTorchDistribution"]}
{"id": "C113", "title": "Feature implementations and torch features", "statement": "Torch features return, for each sample, the features of this sample, size of them: a vector for one sample and one row for each of several. Gaussian radial basis features give the same values as torch tensors and as basis functions. Their values lie between zero and one, with one at the centre only, and do not increase with the distance. Normalised features are positive, sum to one and keep their proportions. Cyclic features have the same values at both ends of the cyclic space. Random Fourier features are as many as asked for, between minus one and one, the last one constant if asked for. Several arguments are concatenated sample by sample. The factory builds features exactly if one kind is asked for.", "quantifier": "every list of features, number of centres, box, scale, sample and batch", "why_tests_cant": "All inputs, all numbers of features and of samples; special sizes change the shape of arrays.", "anchors": ["mushroom_rl/features/features.py:Features", "mushroom_rl/features/_implementations/torch_features.py:TorchFeatures", "mushroom_rl/features/_implementations/basis_features.py:BasisFeatures", "mushroom_rl/features/_implementations/functional_features.py:FunctionalFeatures", "mushroom_rl/features/tensors/basis_tensor.py:GenericBasisTensor", "mushroom_rl/features/tensors/random_fourier_tensor.py:RandomFourierBasis", "mushroom_rl/features/basis/gaussian_rbf.py:GaussianRBF"]}
{"id": "C114", "title": "Episodic PPO", "statement": "An update of ePPO uses every episode in exactly one minibatch of each epoch and makes one optimiser step for each minibatch. At the distribution that drew the episodes the probability ratios are one, so that the loss is minus the mean standardised return minus the entropy bonus and its gradient is that of the policy gradient; elsewhere the loss is never below the one without clipping. Adding a constant to all returns changes nothing, and equal returns have no influence. This holds for one or more episodes and with or without contexts.", "quantifier": "every distribution, optimiser, set of episodes, returns, contexts, minibatch size, number of epochs and shuffling", "why_tests_cant": "All distributions, optimisers and datasets; the gradient is a statement about a limit.", "anchors": ["mushroom_rl/algorithms/policy_search/black_box_optimization/eppo.py:ePPO", "mushroom_rl/algorithms/policy_search/black_box_optimization/context_builder.py:ContextBuilder"]}
{"id": "C115", "title": "Loaded objects have the attributes their methods need", "statement": "An object of any serializable class of the library that has been saved and loaded has, and so have recursively all serializable objects in it, every attribute that the methods of its class read (and every attribute its constructor sets), so that no method of a loaded object raises AttributeError. The exceptions are known exactly: which classes lose which attributes.", "quantifier": "every instance, in every state, of each of the 130 serializable classes with their nested objects, every kind of save, every codec of the values and every _post_load that sets what the class's does", "why_tests_cant": "Each class would need a test of every method after loading, in every state and nesting.", "anchors": ["mushroom_rl/core/serialization.py:Serializable", "mushroom_rl/core/extra_info.py:ExtraInfo", "mushroom_rl/core/dataset.py:Dataset", "mushroom_rl/utils/optimizers.py:AdamOptimizer", "mushroom_rl/policy/recurrent_torch_policy.py:RecurrentGaussianTorchPolicy", "mushroom_rl/algorithms/actor_critic/deep_actor_critic/ppo_bptt.py:PPO_BPTT", "mushroom_rl/algorithms/policy_search/black_box_optimization/more.py:MORE"]}
{"id": "C116", "title": "Replay memories after loading", "statement": "A replay memory that has been saved and loaded can be used again: after a save that is not full it is as good as new, after a full save it answers as the saved one. For prioritized memories the priorities are kept and stay attached to the transitions they were given for.", "quantifier": "every history of additions and priority updates before the save, both kinds of save, every index or draw and every dataset added afterwards", "why_tests_cant": "All histories before the save and all uses after it.", "anchors": ["mushroom_rl/rl_utils/replay_memory.py:ReplayMemory._post_load", "mushroom_rl/rl_utils/replay_memory.py:SumTree._post_load", "mushroom_rl/rl_utils/replay_memory.py:PrioritizedReplayMemory"]}
{"id": "C117", "title": "What callbacks and plots have collected", "statement": "CollectQ, CollectMaxQ, CollectParameters and CollectDataset give from get() exactly what there was at each call since the last clean(), whatever the learner does in between or afterwards, and collecting changes nothing for the learner; clean() can be called at any time and does not touch lists handed out before. CollectMaxQ gives the maximum of what CollectQ gives. The plots of PlotDataset hold the return and length of every episode that ended, and the last window_size step rewards, actions and observations among the steps taken while the plot was shown.", "quantifier": "every history of in-place updates of the tables, uses of the parameter, calls, cleans, steps and clicks in the window; every number of tables, actions, observations and every window size", "why_tests_cant": "All interleavings of learning, collecting and clicking.", "anchors": ["mushroom_rl/utils/callbacks/callback.py:CallbackList", "mushroom_rl/utils/callbacks/collect_q.py:CollectQ", "mushroom_rl/utils/callbacks/collect_max_q.py:CollectMaxQ", "mushroom_rl/utils/callbacks/collect_parameters.py:CollectParameters", "mushroom_rl/utils/callbacks/collect_dataset.py:CollectDataset", "mushroom_rl/utils/callbacks/plot_dataset.py:PlotDataset", "mushroom_rl/utils/plots/window.py:Window"]}
{"id": "C118", "title": "Air hockey with MuJoCo", "statement": "The flags in an observation tell whether, since the reset, the puck touched the mallet of the agent or a short side. Observed position and velocity of the puck are those of the puck in the frame of the agent, and get_puck and get_ee return what they document. The constraints reported in the info hold exactly when the joints are within their limits and the mallet is over the table. Every reset puts the puck on the table within its starting range, in a state that is not absorbing, for every draw, and the bounce point obeys the law of reflection. A goal scored is worth more than any step without one, a goal conceded less than any step without one; the large bonuses are paid only for what the task asks.", "quantifier": "every sequence of contacts, every placement of the robots, every state, action and penalty, all draws", "why_tests_cant": "Continuous states and draws, sequences of contacts of any length.", "anchors": ["mushroom_rl/environments/mujoco_envs/air_hockey/base.py:AirHockeyBase", "mushroom_rl/environments/mujoco_envs/air_hockey/single.py:AirHockeySingle", "mushroom_rl/environments/mujoco_envs/air_hockey/double.py:AirHockeyDouble", "mushroom_rl/environments/mujoco_envs/air_hockey/hit.py:AirHockeyHit", "mushroom_rl/environments/mujoco_envs/air_hockey/defend.py:AirHockeyDefend", "mushroom_rl/environments/mujoco_envs/air_hockey/prepare.py:AirHockeyPrepare", "mushroom_rl/environments/mujoco_envs/air_hockey/repel.py:AirHockeyRepel"]}
{"id": "C119", "title": "Air hockey with PyBullet", "statement": "Every observation is inside the declared observation space and describes the puck in the frame of each agent; the flags, the reward and the end of an episode belong to the state reached by the step; the reported control period is that of the simulation; noise and delay can be switched on; forward kinematics is that of a planar arm with three links.", "quantifier": "every sequence of simulation steps and contacts, every state, action, penalty and draw, all joint angles", "why_tests_cant": "Continuous states and sequences of steps of any length.", "anchors": ["mushroom_rl/environments/pybullet_envs/air_hockey/base.py:AirHockeyBaseBullet", "mushroom_rl/environments/pybullet_envs/air_hockey/single.py:AirHockeySingleBullet", "mushroom_rl/environments/pybullet_envs/air_hockey/double.py:AirHockeyDoubleBullet", "mushroom_rl/environments/pybullet_envs/air_hockey/hit.py:AirHockeyHitBullet", "mushroom_rl/environments/pybullet_envs/air_hockey/defend.py:AirHockeyDefendBullet", "mushroom_rl/environments/pybullet_envs/air_hockey/prepare.py:AirHockeyPrepareBullet", "mushroom_rl/environments/pybullet_envs/air_hockey/repel.py:AirHockeyRepelBullet", "mushroom_rl/environments/pybullet.py:PyBullet.step"]}
{"id": "C120", "title": "Ball in a cup", "statement": "Every reset gives the same state, whatever was simulated before; the undiscounted return of an episode is one if the ball ends in the cup and zero otherwise; the controller of the first reset moves its target from the initial to the desired position without overshooting.", "quantifier": "every history of resets and simulation steps, every episode length", "why_tests_cant": "Histories and episodes of any length.", "anchors": ["mushroom_rl/environments/mujoco_envs/ball_in_a_cup.py:BallInACup"]}
{"id": "C121", "title": "Regressors and tables treat single inputs, batches and models uniformly", "statement": "The implementation chosen by Regressor is the documented one. For every approximator that treats rows independently, and for ensembles of such, predict of a single input is the value of this input and predict of a batch is the value of every row, with or without actions and with the variance if it is asked for. An action that does not exist is refused. len, indexing, iteration and the logged losses of a regressor agree with its models. A Table predicts for every state and action the value last written for it, for every shape of states and batches.", "quantifier": "every approximator, batch, input shape, number of actions and models, every table and index", "why_tests_cant": "All shapes, batch sizes and approximators.", "anchors": ["mushroom_rl/approximators/regressor.py:Regressor", "mushroom_rl/approximators/_implementations/generic_regressor.py:GenericRegressor", "mushroom_rl/approximators/_implementations/q_regressor.py:QRegressor", "mushroom_rl/approximators/_implementations/action_regressor.py:ActionRegressor", "mushroom_rl/approximators/ensemble.py:Ensemble", "mushroom_rl/approximators/ensemble_table.py:EnsembleTable", "mushroom_rl/approximators/table.py:Table"]}
{"id": "C122", "title": "Noisy networks", "statement": "The noise of a noisy layer has mean zero, so that the expected output is the output of the mean weights; all rows of a batch see the same noise; without noise weights the layer is linear; the initial weights have the documented range; predictions can be repeated; the given network provides the features.", "quantifier": "every layer, input, batch and draw; expectation over all independent uniform draws", "why_tests_cant": "Expectations over continuous draws.", "anchors": ["mushroom_rl/algorithms/value/dqn/noisy_dqn.py:NoisyNetwork", "mushroom_rl/algorithms/value/dqn/noisy_dqn.py:NoisyDQN"]}
{"id": "C123", "title": "The array backends are interchangeable", "statement": "Code written against the array backend behaves the same with numpy and with torch: conversions keep shape, order and entries and come back unchanged; backends are found by their names; where, squeeze, clip and median give the same result; a list of states becomes the same array; flattening and packing vectorized data give environment after environment and step after step; initial states, metrics and windowed means of a dataset do not depend on the backend.", "quantifier": "every array, shape, list, mask, dataset and backend", "why_tests_cant": "All shapes, contents and both libraries.", "anchors": ["mushroom_rl/core/array_backend.py:ArrayBackend", "mushroom_rl/core/array_backend.py:NumpyBackend", "mushroom_rl/core/array_backend.py:TorchBackend", "mushroom_rl/core/array_backend.py:ListBackend", "mushroom_rl/core/dataset.py:Dataset.compute_metrics", "mushroom_rl/core/dataset.py:Dataset.get_init_states", "mushroom_rl/utils/running_stats.py:RunningAveragedWindow"]}
{"id": "C124", "title": "Distributional networks, losses and targets", "statement": "For every state and action the categorical and Rainbow networks give a probability distribution over the atoms; the action value is its expectation (the mean of the quantiles for the quantile network) and lies between the smallest and largest atom. Given actions, the network returns for every sample the value or distribution of its action and refuses an action that does not exist. Common changes of the advantages of all actions have no effect in Rainbow. The categorical loss is the mean, or weighted mean, of the cross-entropies of the samples; the quantile loss is the mean over samples, target quantiles and predicted quantiles of the quantile Huber loss. The target distribution has the expectation of the corresponding Q-learning, or n-step double Q-learning, target as long as no atom is clipped. Rewards and steps given to Rainbow are used whatever the sizes of the datasets.", "quantifier": "every network, state, batch size, number of actions, atoms and quantiles, every loss input and transition, every sequence of datasets", "why_tests_cant": "All shapes, including batches of one and single quantiles, and all real values.", "anchors": ["mushroom_rl/algorithms/value/dqn/categorical_dqn.py:CategoricalNetwork", "mushroom_rl/algorithms/value/dqn/categorical_dqn.py:categorical_loss", "mushroom_rl/algorithms/value/dqn/quantile_dqn.py:QuantileNetwork", "mushroom_rl/algorithms/value/dqn/quantile_dqn.py:quantile_huber_loss", "mushroom_rl/algorithms/value/dqn/rainbow.py:RainbowNetwork", "mushroom_rl/algorithms/value/dqn/rainbow.py:Rainbow.fit"]}
{"id": "C125", "title": "Resetting an environment", "statement": "Without an argument reset starts the native environments in the documented way: CartPole, InvertedPendulum(random_start) and Segway(random_start) at rest with a uniformly distributed angle in a region where nothing has fallen, otherwise at the fixed angle; CarOnHill in the valley; PuddleWorld at its start; the large ship uniformly in its observation space; a random LQR uniformly in [-3, 3] cut to its box; FiniteMDP in a state drawn from mu. A given state is the state the environment starts in, up to full turns of its angle; the array of the caller is left alone and the starting state is in the observation space. LQR.generate builds the documented regulator for every principal state.", "quantifier": "every random number, every given state and array type, every initial distribution, every dimension, index, weight and scale", "why_tests_cant": "All real random numbers and states; arrays of floats and integers; all sizes.", "anchors": ["mushroom_rl/environments/cart_pole.py:CartPole.reset", "mushroom_rl/environments/inverted_pendulum.py:InvertedPendulum.reset", "mushroom_rl/environments/segway.py:Segway.reset", "mushroom_rl/environments/car_on_hill.py:CarOnHill.reset", "mushroom_rl/environments/puddle_world.py:PuddleWorld.reset", "mushroom_rl/environments/ship_steering.py:ShipSteering.reset", "mushroom_rl/environments/lqr.py:LQR.generate", "mushroom_rl/environments/lqr.py:LQR.reset", "mushroom_rl/environments/finite_mdp.py:FiniteMDP.reset"]}
{"id": "C126", "title": "Recording videos", "statement": "Every call of learn or evaluate with record=True leaves its own video file with exactly the frames of its steps in their order, at the speed of the environment; earlier videos and other files stay as they are, whatever was recorded, interrupted or left out before. Recording without rendering is refused and without the flag nothing is written. With several environments every environment gets its own video with its own pictures.", "quantifier": "every sequence of completed and interrupted calls, frame contents and sizes, time step, number of environments and mask", "why_tests_cant": "All sequences of calls and all masks.", "anchors": ["mushroom_rl/utils/record.py:VideoRecorder", "mushroom_rl/core/core.py:Core._build_recorder_class", "mushroom_rl/core/core.py:Core._end", "mushroom_rl/core/vectorized_core.py:VectorCore._step", "mushroom_rl/core/vectorized_core.py:VectorCore._end", "mushroom_rl/core/multiprocess_environment.py:MultiprocessEnvironment.render_all"]}
{"id": "C127", "title": "Isaac environments", "statement": "reset_all puts exactly the selected environments in their starting states, or in the given ones, and returns the resulting observations; step_all moves the selected environments with their own actions as often as the task says and reports only them as finished. The observation is the first tensor of the task's nested dictionaries.", "quantifier": "every number of environments, mask, task, state, action and nesting of the observation", "why_tests_cant": "All masks and tasks.", "anchors": ["mushroom_rl/environments/isaac_env.py:IsaacEnv.reset_all", "mushroom_rl/environments/isaac_env.py:IsaacEnv.step_all", "mushroom_rl/utils/isaac_utils.py:convert_task_observation"]}
{"id": "C128", "title": "Pictures of the environments", "statement": "A render shows the present state of the environment and nothing else: points of the world appear at the pixel that contains them, with the vertical axis upwards; agent, goal, start and cell borders of a grid world appear in their cells and different states give different pictures; pole, wheel, boat, car and puddles appear where the state puts them, for every state; arrows show the last force or torque; frames do not contain anything of earlier renders; rendering changes neither the environment nor its arguments.", "quantifier": "every state, history of renders and closings, grid size, start, goal, pole length, force, torque and layout of puddles", "why_tests_cant": "All states and all histories of renders.", "anchors": ["mushroom_rl/utils/viewer.py:Viewer", "mushroom_rl/environments/grid_world.py:AbstractGridWorld.render", "mushroom_rl/environments/car_on_hill.py:CarOnHill.render", "mushroom_rl/environments/inverted_pendulum.py:InvertedPendulum.render", "mushroom_rl/environments/cart_pole.py:CartPole.render", "mushroom_rl/environments/segway.py:Segway.render", "mushroom_rl/environments/ship_steering.py:ShipSteering.render", "mushroom_rl/environments/puddle_world.py:PuddleWorld.render"]}
{"id": "C129", "title": "Factory of Voronoi tilings", "statement": "VoronoiTiles.generate makes the required number of tilings; with n_tilings = -1 it is the square of the smallest exponent for which the power of two reaches four times the dimension of the space and the number of prototypes. Every tiling has n_prototypes prototypes, inside the box for uniform sampling; other numbers of tilings fail.", "quantifier": "every dimension, number of prototypes and tilings, bounds and random draws", "why_tests_cant": "All dimensions, numbers and draws.", "anchors": ["mushroom_rl/features/tiles/voronoi.py:VoronoiTiles.generate"]}
{"id": "C130", "title": "Console logging and file names of loggers", "statement": "Every message is written once to the console and once to the log file of its logger, if its level is high enough for them, in the order of the calls, and nothing else is written; loggers with different names or seeds do not disturb each other; loggers write different data to different files.", "quantifier": "every sequence of constructions, deletions and messages of loggers, every name, directory, seed, epoch and level", "why_tests_cant": "All histories of all loggers of a process.", "anchors": ["mushroom_rl/core/logger/console_logger.py:ConsoleLogger", "mushroom_rl/core/logger/logger.py:Logger", "mushroom_rl/core/logger/data_logger.py:DataLogger"]}
{"id": "C131", "title": "Wrappers, pictures and actions of wrapped environments", "statement": "Gym and Gymnasium put all given wrappers around the environment, in the given order, each with its own arguments and no others. Rendering shows the present observation after every history of resets and steps and returns it for recording. Actions of the rearrange task of Habitat are split into those of the arm and those of the gripper, and get_optimal_policy_return is the sum of the rewards of the path until the episode ends.", "quantifier": "every list of wrappers, dictionaries of arguments, history of calls, action and path", "why_tests_cant": "All lists, arguments and histories.", "anchors": ["mushroom_rl/environments/gym_env.py:Gym", "mushroom_rl/environments/gymnasium_env.py:Gymnasium", "mushroom_rl/environments/igibson_env.py:iGibson", "mushroom_rl/environments/habitat_env.py:Habitat", "mushroom_rl/environments/habitat_env.py:HabitatRearrangeWrapper", "mushroom_rl/environments/habitat_env.py:HabitatNavigationWrapper"]}
{"id": "C132", "title": "Whole learning runs: what reaches the learning rules", "statement": "Putting the loop, the dataset, the replay memory and the agents together: (a) an agent is changed by the calls of `fit` of the run alone, in order, and not by `evaluate`; (b) after `learn(n_steps=N, n_steps_per_fit=k)` a new DQN agent has been fitted N//k times, its replay memory holds exactly the last `max_replay_size` of the first (N//k)k transitions of the run (the t-th one in slot t mod max_replay_size), it has its initial weights unless it holds more than `initial_replay_size` transitions, and its target network has the online weights of the last update whose number is a multiple of `target_update_frequency`; (c) at every fit it regresses on `batch_size` transitions among the last `max_replay_size` delivered so far, never on later ones; (d) a Rainbow agent learns from the run (refuted: with `n_steps_return > n_steps_per_fit` nothing is ever stored and the agent is the same after any number of steps); (e) in the datasets that on-policy agents receive transitions are continuous inside episodes, so the targets of `compute_gae` are lambda-returns; (f) `evaluate(n_episodes=N)` followed by `compute_J` gives exactly the discounted returns of N whole episodes; (g) with `n_episodes_per_fit=k` an episodic agent gets at every fit k parameter vectors and k whole episodes, the i-th episode and the i-th return belonging to the i-th parameters.", "quantifier": "All environments, policies, preprocessors, callbacks, numbers of steps and episodes, memory sizes, batch draws, networks and update rules", "why_tests_cant": "It is a statement about whole executions of any length with arbitrary plug-ins; the pieces can pass their tests and the composition still lose or duplicate transitions", "anchors": ["mushroom_rl/core/core.py:Core.learn", "mushroom_rl/core/core.py:Core.evaluate", "mushroom_rl/algorithms/value/dqn/abstract_dqn.py:AbstractDQN.fit", "mushroom_rl/algorithms/value/dqn/rainbow.py:Rainbow.fit", "mushroom_rl/rl_utils/replay_memory.py:ReplayMemory", "mushroom_rl/rl_utils/value_functions.py:compute_gae", "mushroom_rl/core/dataset.py:Dataset.compute_J"]}
{"id": "C133", "title": "Dataset objects keep the transitions, policy states and parameters they are given", "statement": "A Dataset holds exactly the steps, policy states and policy parameters given to it since the last clear, with every storage back-end; views, selections, concatenations, from_array and VectorizedDataset.flatten return the corresponding rows with their policy states and parameters, and VectorCore runs with any number of environments.", "quantifier": "all histories of append, append_theta and clear, all back-ends, all datasets, slices and row numbers, all vectorised runs", "why_tests_cant": "The defects show only for particular combinations of back-end, statefulness and kind of index, of which tests try a few.", "anchors": ["mushroom_rl/core/dataset.py:Dataset.from_array", "mushroom_rl/core/dataset.py:Dataset.get_view", "mushroom_rl/core/dataset.py:Dataset.__add__", "mushroom_rl/core/dataset.py:Dataset.__getitem__", "mushroom_rl/core/dataset.py:Dataset.select_random_samples", "mushroom_rl/core/dataset.py:VectorizedDataset.flatten", "mushroom_rl/core/_impl/numpy_dataset.py:NumpyDataset", "mushroom_rl/core/_impl/torch_dataset.py:TorchDataset", "mushroom_rl/core/_impl/list_dataset.py:ListDataset"]}
{"id": "C134", "title": "Learning goes on after loading", "statement": "An agent that is saved and loaded goes on learning as if it had not been saved: the calls of fit after loading change the function that its policy uses to draw actions, in the same way as before, and gradients are clipped as before. The optimizer of a loaded network gets the new parameters with the state of the old ones.", "quantifier": "all pairs of an agent and a policy that can be used together, full_save or not, all weights, update rules and lists of datasets before and after saving; all optimizers, rules, states and gradients", "why_tests_cant": "A test can save and load one agent and fit it once; that every pair of agent and policy keeps every reference that matters, after any number of fits, follows from the tables of saved attributes and the code after loading.", "anchors": ["mushroom_rl/core/serialization.py:Serializable.load_zip", "mushroom_rl/utils/torch.py:TorchUtils.update_optimizer_parameters", "mushroom_rl/algorithms/actor_critic/classic_actor_critic/copdac_q.py:COPDAC_Q", "mushroom_rl/algorithms/policy_search/black_box_optimization/eppo.py:ePPO", "mushroom_rl/policy/td_policy.py:Mellowmax"]}
{"id": "C135", "title": "Losses and targets use one value per transition", "statement": "In every fit of a deep actor-critic agent the advantages, the targets of the critic and the losses combine, for each transition, only the log-probability, advantage, reward, flag and values of that transition; no two transitions are mixed and no size of dataset or batch makes the computation fail.", "quantifier": "all data, critics returning a column, a vector or a squeezed column, all numbers of transitions, minibatches, action dimensions and batch sizes", "why_tests_cant": "tests run one network with one shape and one batch size; mixing transitions by broadcasting raises no error and still produces numbers, and the tests of DDPG end before the first fit", "anchors": ["mushroom_rl/rl_utils/value_functions.py:compute_advantage_montecarlo", "mushroom_rl/rl_utils/value_functions.py:compute_advantage", "mushroom_rl/rl_utils/value_functions.py:compute_gae", "mushroom_rl/algorithms/actor_critic/deep_actor_critic/ppo.py:PPO._update_policy", "mushroom_rl/algorithms/actor_critic/deep_actor_critic/trpo.py:TRPO._compute_loss", "mushroom_rl/algorithms/actor_critic/deep_actor_critic/a2c.py:A2C._loss", "mushroom_rl/algorithms/actor_critic/deep_actor_critic/sac.py:SAC._next_q", "mushroom_rl/algorithms/actor_critic/deep_actor_critic/ddpg.py:DDPG._next_q", "mushroom_rl/policy/recurrent_torch_policy.py:RecurrentGaussianTorchPolicy.log_prob_t", "mushroom_rl/utils/torch.py:CategoricalWrapper.log_prob"]}
{"id": "C136", "title": "Episodes in generated environments follow the map", "statement": "For every rectangular map file with a start and a goal (and, for the taxi, a passenger), the generators of the grid world and of the taxi build an environment; reset puts the agent on a start cell, and no sequence of actions and random numbers makes a step raise an exception. Every transition goes to the neighbouring cell of its action (for the taxi, of its action or of a slip to the side) or stays, never enters a wall, is rewarded as documented, and ends the episode exactly on goals and holes; the taxi keeps its passengers and picks up those of the cells it enters. Episodes of a generated chain never raise and never end.", "quantifier": "all maps, chain lengths, goals, success probabilities, rewards, initial distributions, sequences of actions and random numbers", "why_tests_cant": "The tables are products of the whole map; a test walks a few maps with a few random numbers and cannot show that no reachable state raises or that every transition of every map obeys the rules.", "anchors": ["mushroom_rl/environments/finite_mdp.py:FiniteMDP", "mushroom_rl/environments/generators/grid_world.py:generate_grid_world", "mushroom_rl/environments/generators/taxi.py:generate_taxi", "mushroom_rl/environments/generators/simple_chain.py:generate_simple_chain"]}
{"id": "C137", "title": "Networks that exchange weights stay independent", "statement": "Whatever networks and arrays of weights are constructed, read with get_weights, copied with set_weights(other.get_weights()), mixed by soft updates and trained in place, in any order, each behaves as if it had its own copy of its weights: training the online network never changes a target network, nor an array read earlier. The vector returned by get_gradient has one entry per entry of get_weights, in the same order, zero for parameters without gradient.", "quantifier": "all numbers and shapes of networks, all histories of reading, copying, mixing and in-place training", "why_tests_cant": "Sharing of memory between two networks shows only after a particular order of copies and in-place updates, far from the call that caused it.", "anchors": ["mushroom_rl/utils/torch.py:TorchUtils.set_weights", "mushroom_rl/utils/torch.py:TorchUtils.get_weights", "mushroom_rl/utils/torch.py:TorchUtils.get_gradient", "mushroom_rl/utils/torch.py:TorchUtils.zero_grad", "mushroom_rl/approximators/parametric/torch_approximator.py:TorchApproximator.set_weights", "mushroom_rl/algorithms/value/dqn/abstract_dqn.py:AbstractDQN._update_target", "mushroom_rl/algorithms/actor_critic/deep_actor_critic/deep_actor_critic.py:DeepAC._update_target"]}
{"id": "C138", "title": "A call of SAC.fit trains every network with its own loss only, in a fixed order", "statement": "For every SAC agent, every replay memory, network, optimiser, clipping function and schedule, and every sequence of calls of fit: gradients left over from earlier losses (the loss of the actor also differentiates the critics and the temperature) never influence any weight; with an initialised memory holding more samples than the warm-up, the actor makes one step along the clipped gradient of minus the soft value, the temperature one step along the slope of its own loss for the log-probabilities before the step of the actor, every critic the minibatch steps on its own loss for targets made with the new actor, the new temperature and the old target critics, and the target critics then move towards the new critics; before the end of the warm-up actor and temperature do not move (never, if the warm-up is at least the capacity); the target critics stay within the range of the past critics; under gradient descent the temperature rises exactly if the estimated entropy is below the target.", "quantifier": "all systems (memory, networks, losses, optimisers, automatic differentiation, schedules), all initial buffers, all sequences of datasets", "why_tests_cant": "The leftover gradients depend on the whole history of losses; a test sees one network, one optimiser and a few calls, and a leak only changes the numbers.", "anchors": ["mushroom_rl/algorithms/actor_critic/deep_actor_critic/sac.py:SAC.fit", "mushroom_rl/algorithms/actor_critic/deep_actor_critic/deep_actor_critic.py:DeepAC._optimize_actor_parameters", "mushroom_rl/approximators/parametric/torch_approximator.py:TorchApproximator._fit_batch"]}
{"id": "C139", "title": "Agents that are given the same configuration objects do not interfere", "statement": "For every program that builds agents from configuration dictionaries and policy objects: every constructor has the outcome (exception, one model or an ensemble of n) it would have alone; every fit trains what it would train alone; a value-based agent acts by its own approximator exactly if no agent built later was given the same policy object. FAILS for agents of different kinds: TD3 and SAC add, and DoubleFQI overwrites, the key n_models of the dictionary of the caller, so that a DDPG or FQI agent built later from it silently gets two models; MaxminDQN writes the key idx into the fit parameters of the caller, which breaks the fit of other agents.", "quantifier": "all sequences of constructors and fits, all assignments of dictionaries and policies to the agents, all contents of the dictionaries", "why_tests_cant": "Tests build one agent from a fresh dictionary; interference depends on which agents were built before from the same objects, in which order.", "anchors": ["mushroom_rl/algorithms/actor_critic/deep_actor_critic/td3.py:TD3.__init__", "mushroom_rl/algorithms/actor_critic/deep_actor_critic/sac.py:SAC.__init__", "mushroom_rl/algorithms/value/batch_td/double_fqi.py:DoubleFQI.__init__", "mushroom_rl/algorithms/value/dqn/maxmin_dqn.py:MaxminDQN.fit", "mushroom_rl/policy/td_policy.py:TDPolicy.set_q"]}
{"id": "C140", "title": "Q-learning run through Core in a grid world finds the shortest paths", "statement": "Take a Core made of a QLearning agent and a GridWorld of any size, with any start and goal cell, any discount in (0, 1), any horizon, any policy, any callbacks and any schedule of the learning rate that stays in [alpha, 1]. There is a number K, which depends only on the size, the discount and alpha, such that after any call core.learn(..., n_steps_per_fit=1) from initial values in [0, 10] during which every action was taken in every cell in each of K consecutive pieces of the run, every greedy action of every cell is the first move of a shortest path to the goal. core.evaluate(n_episodes=M) with a greedy policy then returns exactly M episodes, each a shortest path from the start with return 10 gamma^(D-1), and does not change the table. In general, in every deterministic environment the distance of the table from the optimal values never grows during learn, and shrinks by the factor gamma + (1-alpha)^k (1-gamma) in each piece that takes every action k times in every state that is not terminal.", "quantifier": "all grids, start and goal cells, discounts, horizons, policies, callbacks, learning rate schedules, initial values, lengths of the run; for the general part all deterministic environments with terminal states", "why_tests_cant": "Tests run an agent for a fixed number of steps with one seed and compare the table to stored numbers; whether the learned behaviour is optimal for every exploration history and every grid is a statement about infinitely many runs.", "anchors": ["mushroom_rl/core/core.py:Core.learn", "mushroom_rl/core/core.py:Core.evaluate", "mushroom_rl/algorithms/value/td/q_learning.py:QLearning._update", "mushroom_rl/algorithms/value/td/td.py:TD.fit", "mushroom_rl/environments/grid_world.py:GridWorld", "mushroom_rl/environments/grid_world.py:AbstractGridWorld.step"]}
{"id": "C141", "title": "Weighted Q-learning keeps the weighted moments of its targets and the standard error of the mean", "statement": "After any sequence of updates of a WeightedQLearning agent, the value of every state-action pair is the weighted sum of the targets of its updates, where each update multiplies the weights of the earlier targets by one minus its learning rate; the second table holds the weighted sum of the squared targets, and two further tables the sum of the weights and of their squares. With a first learning rate of one the weights sum to one, and with the rates 1, 1/2, 1/3, ... they are all equal, so that the value is the mean of the targets. The width used to weigh the actions is very large until the second update of a pair and then the standard error of the weighted mean.", "quantifier": "all sequences of transitions, learning rates, samples of the estimator and tie breaks", "why_tests_cant": "the moments of every pair depend on the whole history of updates and learning rates; tests compare one table after a short run", "anchors": ["mushroom_rl/algorithms/value/td/weighted_q_learning.py:WeightedQLearning", "mushroom_rl/algorithms/value/td/weighted_q_learning.py:WeightedQLearning._update"]}
{"id": "C142", "title": "A call of PPO.fit uses every transition once per epoch, with the advantage and probability from before the fit", "statement": "A call of fit with at least two transitions, a fixed number of epochs and a fixed size of minibatches succeeds and updates the agent preprocessors with the states, fits the critic to targets computed with its weights before the fit, and makes one optimiser step of the policy per minibatch: number of epochs times the number of transitions divided by the batch size, rounded up. In every epoch each transition is used exactly once. The loss of a minibatch is the opposite of the mean clipped objective of its transitions minus the entropy bonus; each transition comes with its own advantage, the generalised advantage along its own trajectory standardised over the dataset, and with the probability that the policy and the preprocessors gave to its action before the fit. The interval of the ratios is symmetric and follows the schedule of its parameter, one call per minibatch. What is left in gradient buffers never matters. All this holds for any number of calls, also when the number of epochs or the batch size is given as a Parameter, as documented.", "quantifier": "all policies, critics, optimisers, preprocessors, random generators, datasets, schedules and numbers of calls", "why_tests_cant": "the order of updates inside a call is only visible in the numbers of one run; tests compare the final weights of one small example", "anchors": ["mushroom_rl/algorithms/actor_critic/deep_actor_critic/ppo.py:PPO.fit", "mushroom_rl/algorithms/actor_critic/deep_actor_critic/ppo.py:PPO._update_policy", "mushroom_rl/algorithms/actor_critic/deep_actor_critic/deep_actor_critic.py:OnPolicyDeepAC._preprocess_state", "mushroom_rl/core/agent.py:Agent._update_agent_preprocessor", "mushroom_rl/utils/minibatches.py:minibatch_generator"]}
{"id": "C143", "title": "Parallel environments are isolated, reproducible from a seed, and independent of each other", "statement": "In a MultiprocessEnvironment, for every sequence of calls and every schedule of the worker processes, the answers received from an environment are those the environment alone would give to the commands sent to it. After seed(s) and a reset, two experiments with the same seed and the same calls receive the same answers. The environments draw different random numbers: after construction or after seeding, the initial states and the noise of the parallel environments are independent.", "quantifier": "all environments, numbers of workers, sequences of calls, masks, schedules and generators", "why_tests_cant": "the interleavings of the processes cannot be enumerated; tests use deterministic environments, where copies and independent samples look the same", "anchors": ["mushroom_rl/core/multiprocess_environment.py:MultiprocessEnvironment", "mushroom_rl/core/multiprocess_environment.py:_env_worker", "mushroom_rl/core/multiprocess_environment.py:MultiprocessEnvironment.seed", "mushroom_rl/core/environment.py:Environment.seed", "mushroom_rl/environments/mujoco.py:MuJoCo.seed", "mushroom_rl/environments/pybullet.py:PyBullet.seed"]}
{"id": "C144", "title": "Every observation is preprocessed exactly once", "statement": "In every run, every observation that the environment returns - at a reset or at a step - is given to the preprocessors added with add_core_preprocessor exactly once and in order; each preprocessor learns from it before it changes it, and the result is the state the agent gets. With a StandardizationPreprocessor the state for observation k is therefore the observation standardised with the statistics of the observations up to and including k. Evaluating an agent does not change what it sees, and the preprocessors work with VectorCore as with Core.", "quantifier": "all environments, policies, learning rules, callbacks, lists of preprocessors with any state, budgets and ways of fitting, at every point of every run, and over several calls; all numbers of environments for VectorCore", "why_tests_cant": "the statistics depend on the whole history of resets and steps, over all calls; a test sees one history", "anchors": ["mushroom_rl/core/core.py:Core._preprocess", "mushroom_rl/core/core.py:Core._reset", "mushroom_rl/core/core.py:Core._step", "mushroom_rl/core/vectorized_core.py:VectorCore._preprocess", "mushroom_rl/core/vectorized_core.py:VectorCore._reset", "mushroom_rl/core/vectorized_core.py:VectorCore._step", "mushroom_rl/rl_utils/preprocessors.py:StandardizationPreprocessor", "mushroom_rl/core/agent.py:Agent.add_core_preprocessor"]}
{"id": "C145", "title": "Tabular learning converges in random problems", "statement": "In a finite problem with random transitions, discount below 1 and every action taken again and again in every live state, with learning rates that meet the conditions of Robbins and Monro (which a DecayParameter of the size of the problem with value in (0, 1] and exponent in (1/2, 1] does), the tables of QLearning converge with probability one to the optimal action values, so that the greedy actions are eventually optimal; the tables of SARSA and ExpectedSARSA with a fixed policy converge to the values of the policy; every table of MaxminQLearning, and the minimum that its policy uses, converges to the optimal values. The same holds for the table an agent has after learn(n_steps=n, n_steps_per_fit=1), as n grows.", "quantifier": "all finite problems with random transitions, all probability spaces and histories of experience, all behaviours of the agent, all initial tables, all learning rates that meet the conditions, all numbers of tables", "why_tests_cant": "A limit with probability one cannot be observed in any finite number of runs.", "anchors": ["mushroom_rl/algorithms/value/td/q_learning.py:QLearning._update", "mushroom_rl/algorithms/value/td/sarsa.py:SARSA._update", "mushroom_rl/algorithms/value/td/expected_sarsa.py:ExpectedSARSA._update", "mushroom_rl/algorithms/value/td/maxmin_q_learning.py:MaxminQLearning._update", "mushroom_rl/rl_utils/parameters.py:DecayParameter", "mushroom_rl/core/core.py:Core.learn"]}
{"id": "C146", "title": "A call of fit of DDPG, TD3 or A2C trains every network with its own loss only, in a fixed order", "statement": "Whatever gradients earlier calls left in the buffers of the networks, one call of fit of DDPG or TD3 with an initialised memory fits every critic to the targets of the old target networks, then, when the number of such calls so far is a multiple of the policy delay, makes one optimiser step of the actor along the clipped gradient of minus the mean value the new critics (for TD3: the first one) give to its actions, then moves both target networks; the step of the actor moves no critic. A delay of zero is the only way a call can fail. One call of A2C computes targets and advantages with the critic as it was before the call, fits the critics to these targets, and makes one step of the policy along the clipped gradient of minus the mean of log-probability times advantage and of the entropy bonus. In every sequence of calls the buffers have no influence.", "quantifier": "all agents, datasets, optimisers, gradients, batch selections, schedules of tau, delay and entropy coefficient, and all sequences of calls", "why_tests_cant": "The leak of gradients between losses depends on the history of the calls; a test sees a few updates of one configuration.", "anchors": ["mushroom_rl/algorithms/actor_critic/deep_actor_critic/ddpg.py:DDPG.fit", "mushroom_rl/algorithms/actor_critic/deep_actor_critic/td3.py:TD3._loss", "mushroom_rl/algorithms/actor_critic/deep_actor_critic/a2c.py:A2C.fit", "mushroom_rl/algorithms/actor_critic/deep_actor_critic/deep_actor_critic.py:DeepAC._optimize_actor_parameters"]}
{"id": "C147", "title": "Double Q-learning converges to the optimal values although each table has its own learning rate", "statement": "In a finite Markov decision problem with random transitions, DoubleQLearning with a learning rate DecayParameter(value, exp, size=mdp.info.size), 0 < value <= 1, 1/2 < exp <= 1, converges with probability one: if every action is taken again and again in every live state, both tables converge to the optimal action values, whatever the exploration policy and the initial tables are. So does their mean, which the policy of the agent reads, and from some time on every greedy action of the mean is optimal. This holds although the two tables keep separate copies of the learning rate, which are advanced only when the table is chosen by the coin, so that the rates of the two tables differ at any time.", "quantifier": "all finite problems with transition probabilities, all discounts in [0, 1), all behaviours of the agent, all initial tables, all decaying learning rates with the given exponents, almost all infinite histories", "why_tests_cant": "Convergence is a statement about infinite histories and holds only with probability one; a test sees finitely many steps of one seed. The rates of the tables are random, and the argument needs that the coin makes them equal in the limit.", "anchors": ["mushroom_rl/algorithms/value/td/double_q_learning.py:DoubleQLearning._update", "mushroom_rl/algorithms/value/td/double_q_learning.py:DoubleQLearning.__init__", "mushroom_rl/rl_utils/parameters.py:DecayParameter", "mushroom_rl/approximators/ensemble_table.py:EnsembleTable"]}
{"id": "C148", "title": "A whole fit of TRPO keeps the policy inside the trust region and never makes its objective worse", "statement": "TRPO.fit updates the preprocessors, computes advantages and critic targets with the critic it had, takes the gradient of its objective at its current weights, and then either leaves the weights of the policy exactly as they were or moves them by the longest step, among the full step and its halvings, whose mean divergence from the old policy is at most one and a half times max_kl and whose objective is not below that of the old weights; afterwards it fits the critic to the targets. No dataset, not even one with a single transition, leaves weights that are not numbers, and no call fails.", "quantifier": "all policies, critics, preprocessors, divergences and Hessians, all datasets of any size, all numbers of iterations, all values of the schedules, and all sequences of fits", "why_tests_cant": "the acceptance test, the schedules and the failures of the conjugate gradient depend on the whole history; a test sees one landscape", "anchors": ["mushroom_rl/algorithms/actor_critic/deep_actor_critic/trpo.py:TRPO.fit", "mushroom_rl/algorithms/actor_critic/deep_actor_critic/trpo.py:TRPO._conjugate_gradient", "mushroom_rl/algorithms/actor_critic/deep_actor_critic/trpo.py:TRPO._line_search", "mushroom_rl/algorithms/actor_critic/deep_actor_critic/trpo.py:TRPO._compute_loss", "mushroom_rl/algorithms/actor_critic/deep_actor_critic/deep_actor_critic.py:OnPolicyDeepAC._preprocess_state"]}
{"id": "C149", "title": "A logger only observes: learning with one gives the same agents as learning without", "statement": "Giving an agent a logger with set_logger changes nothing about what it learns: every call of fit leaves the same agent as without a logger and raises nothing of its own; PPO and TRPO log one message per call, numbered consecutively, with the error of each critic with respect to the targets of this fit, the entropy of the new policy and the divergence of the new policy from the old one; DQN writes one row of losses for each fit of its network.", "quantifier": "all agents, datasets, critics, policies and sequences of fits, with and without a logger", "why_tests_cant": "that logging has no effect is a statement about two runs of every history", "anchors": ["mushroom_rl/core/agent.py:Agent.set_logger", "mushroom_rl/algorithms/actor_critic/deep_actor_critic/ppo.py:PPO._log_info", "mushroom_rl/algorithms/actor_critic/deep_actor_critic/trpo.py:TRPO._log_info", "mushroom_rl/algorithms/value/dqn/abstract_dqn.py:AbstractDQN.set_logger", "mushroom_rl/approximators/regressor.py:Regressor._log", "mushroom_rl/core/logger/data_logger.py:DataLogger.log_numpy"]}
{"id": "C150", "title": "A whole fit of recurrent PPO uses each transition once per epoch with its own window and its own behaviour probability", "statement": "A call of PPO_BPTT.fit with any dataset succeeds; for each transition it makes the window of the last truncation_length states of its own trajectory, padded with zeros, with the policy state recorded for the first of them; it fits the critic to the windows and to the targets defined before the fit, and improves the policy with one optimiser step per minibatch, each transition used once per epoch with its own window and advantage and with the probability with which its action was drawn. Over any sequence of fits the coefficients move on by the number of minibatches.", "quantifier": "all datasets, trajectories, truncation lengths, recurrent networks, optimisers, shuffles, schedules of coefficients and sequences of fits", "why_tests_cant": "the window of each step depends on all earlier ends of trajectories, and the claims are about every network and every shuffle", "anchors": ["mushroom_rl/algorithms/actor_critic/deep_actor_critic/ppo_bptt.py:PPO_BPTT.fit", "mushroom_rl/algorithms/actor_critic/deep_actor_critic/ppo_bptt.py:PPO_BPTT._transform_to_sequences", "mushroom_rl/algorithms/actor_critic/deep_actor_critic/ppo_bptt.py:PPO_BPTT._update_policy", "mushroom_rl/algorithms/actor_critic/deep_actor_critic/ppo_bptt.py:PPO_BPTT.compute_gae", "mushroom_rl/policy/recurrent_torch_policy.py:RecurrentGaussianTorchPolicy.log_prob_t"]}
{"id": "C151", "title": "Epsilon-greedy agents with a decaying epsilon explore for ever and find the optimal values", "statement": "An agent whose policy is EpsGreedy with an epsilon that decays as v / n^p of the visits to the state, 0 < p <= 1, meets every action in every state again and again with probability one, whatever it learns, in every finite problem in which each live state can be reached from each other one. Therefore, with a learning rate that decays as w / n^r of the visits to the pair, 1/2 < r <= 1, the tables of Q-learning, of SARSA and of expected SARSA converge to the optimal values with probability one, also over a whole call of Core.learn for Q-learning, although the experience depends on the tables being learned.", "quantifier": "all finite problems with random transitions and rewards, discounts below one, initial tables, epsilons and rates of the given forms, and all outcomes outside a set of probability zero", "why_tests_cant": "it is a limit over infinite runs that holds with probability one, and the experience depends on the estimates", "anchors": ["mushroom_rl/policy/td_policy.py:EpsGreedy.draw_action", "mushroom_rl/policy/td_policy.py:EpsGreedy.__call__", "mushroom_rl/rl_utils/parameters.py:DecayParameter._compute", "mushroom_rl/algorithms/value/td/sarsa.py:SARSA._update", "mushroom_rl/algorithms/value/td/expected_sarsa.py:ExpectedSARSA._update", "mushroom_rl/algorithms/value/td/q_learning.py:QLearning._update", "mushroom_rl/core/core.py:Core.learn"]}
{"id": "C152", "title": "The mean return of an evaluation over episodes estimates the performance of the policy without bias", "statement": "In an environment that draws its transitions at random, with any policy, also one with an internal state or with parameters drawn at the start of each episode: Core.evaluate(n_episodes=N) followed by compute_J gives N numbers that are independent and identically distributed, although the lengths of the episodes are random. The expectation of each one is the performance of the policy, that is its expected discounted return up to the horizon. Their mean is therefore unbiased, converges to the performance with probability one as N grows, and is within eps of it except with probability 2 exp(-N eps^2 / (2 B^2)), where B bounds the discounted returns. With initial_states the numbers are independent too, and the expectation of each is the value from its initial state. With n_steps the last episode can be cut and the mean is biased.", "quantifier": "all environments with measurable dynamics and bounded rewards, policies, horizons of at least one step, discounts, numbers of episodes and histories of the Core object before the call", "why_tests_cant": "it speaks of expectations and of limits with probability one over all sequences of random numbers; a test sees finitely many samples and cannot tell a small bias from noise", "anchors": ["mushroom_rl/core/core.py:Core.evaluate", "mushroom_rl/core/core.py:Core._run", "mushroom_rl/core/core.py:Core._step", "mushroom_rl/core/core.py:Core._reset", "mushroom_rl/core/_impl/core_logic.py:CoreLogic.initialize_evaluate", "mushroom_rl/core/dataset.py:Dataset.compute_J"]}
{"id": "C153", "title": "A vectorized evaluation over episodes gives exactly the episodes asked for, and their returns have the same law as with one environment", "statement": "With more than one environment, VectorCore.evaluate(n_episodes=N) ends after at most N*horizon iterations and compute_J of its dataset has exactly N elements, for every way in which the episodes of the environments overlap. In environments that draw their transitions at random the expectation of the mean of these N returns is the performance of the policy, its expected discounted return up to the horizon. Short episodes are not over-represented, although an environment whose episode ends soon is free for another episode while the others still run. In the order in which their episodes start the N returns are independent and identically distributed, with the law of a return of the sequential Core. So each statistic of the returns that does not depend on their order has the same distribution as with the sequential Core, and the mean is within eps of the performance except with probability 2 exp(-N eps^2 / (2 B^2)). The core may have been used for learning before, with no number of episodes per fit smaller than N.", "quantifier": "all environments with measurable dynamics and bounded rewards, policies with or without internal state, numbers of environments, horizons, discounts, numbers of episodes, earlier states of the core and contents of uninitialised arrays", "why_tests_cant": "the bias of a parallel evaluation depends on all the ways in which random episode lengths interleave; a test sees finitely many runs and cannot tell a small bias from noise", "anchors": ["mushroom_rl/core/vectorized_core.py:VectorCore.evaluate", "mushroom_rl/core/vectorized_core.py:VectorCore._run", "mushroom_rl/core/vectorized_core.py:VectorCore._step", "mushroom_rl/core/vectorized_core.py:VectorCore._reset", "mushroom_rl/core/_impl/vectorized_core_logic.py:VectorizedCoreLogic.get_mask", "mushroom_rl/core/dataset.py:VectorizedDataset.flatten", "mushroom_rl/core/dataset.py:Dataset.compute_J"]}
{"id": "C154", "title": "LSPI with one feature per state and action ends and finds the optimal values of its dataset", "statement": "Let LSPI have one feature per state and action, and let its dataset contain every pair at least once and no absorbing transition, with a discount below one. Then each call of fit with a positive epsilon returns, from whatever weights it starts. Its values are never above the optimal values of the empirical model of the dataset, in which a pair has the average reward and the observed frequencies of next states, and they are below them by at most 2 gamma epsilon / (1 - gamma). For a dataset of a deterministic problem these are the optimal values of the problem itself.", "quantifier": "all finite state and action sets, datasets as described, in any order and with any multiplicities, initial weights, greedy tie-breaking rules, discounts in [0, 1), tolerances", "why_tests_cant": "termination of the loop and the distance to the optimum are statements about all datasets and all initial weights; a test can only watch one loop stop", "anchors": ["mushroom_rl/algorithms/value/batch_td/lspi.py:LSPI.fit"]}
{"id": "C155", "title": "The viewer of MuJoCo environments obeys its keys, its mouse and its clock", "statement": "The camera parameters of the viewer are the given ones, completed by the defaults, and a dictionary is rejected exactly when it names an unknown camera or parameter. Each key does what the menu says and nothing else. The menu is drawn exactly if there is a window and it is not hidden, and tells the current mode and speed. Dragging the mouse moves the camera by the fraction of the window that the pointer has moved since its last position. A frame is drawn with the camera mode that results from the starting mode and the number of TAB presses, a recorded frame is the last one drawn, the number of drawn frames follows simulated time divided by speed and real time per frame, and a paused viewer draws without letting the simulation go on until it is resumed.", "quantifier": "all camera dictionaries, key, mouse and scroll events in any order, tapes of events and durations of frames, numbers of calls of render, speeds, start modes, with and without a window", "why_tests_cant": "the viewer is a reactive loop driven by the user and by the clock; tests run without a window and no finite list of event sequences covers the histories", "anchors": ["mushroom_rl/utils/mujoco/viewer.py:MujocoViewer.render", "mushroom_rl/utils/mujoco/viewer.py:MujocoViewer.keyboard", "mushroom_rl/utils/mujoco/viewer.py:MujocoViewer.mouse_move", "mushroom_rl/utils/mujoco/viewer.py:MujocoViewer._set_camera", "mushroom_rl/utils/mujoco/viewer.py:MujocoViewer._assert_camera_params"]}
{"id": "C156", "title": "The viewers return and show pictures of the right size, orientation and colours", "statement": "Without a window the frames of a MuJoCo environment have the size asked for and fit into the offscreen buffer, also after a change of the model. Pictures are returned with the upper row first, and depths likewise. The backend is the one named by MUJOCO_GL or else the first that works. Pictures of pybullet environments have one row per pixel of the height of the window. An image handed to a viewer of images is shown pixel by pixel and in its own colours, whatever was shown before, and the viewer then waits for the duration of a step.", "quantifier": "all sizes, buffers, scenes, images, outcomes of trying the backends, histories of displays and closes, step durations", "why_tests_cant": "pictures of all sizes and all histories of a window are meant, and the libraries behind the viewers are not available in tests", "anchors": ["mushroom_rl/utils/mujoco/viewer.py:MujocoViewer.update_headless_size", "mushroom_rl/utils/mujoco/viewer.py:MujocoViewer.read_pixels", "mushroom_rl/utils/mujoco/viewer.py:MujocoViewer.load_new_model", "mushroom_rl/utils/mujoco/viewer.py:MujocoViewer.setup_opengl_backend_headless", "mushroom_rl/utils/pybullet/viewer.py:PyBulletViewer.display", "mushroom_rl/utils/viewer.py:ImageViewer.display", "mushroom_rl/utils/viewer.py:CV2Viewer.display"]}
{"id": "C157", "title": "Advantages are unbiased when the critic is exact", "statement": "If the critic predicts the values of the policy, the advantage that compute_gae, compute_advantage or compute_advantage_montecarlo returns for a step is, in expectation over what follows the step, the value of its action minus the value of its state, for every lambda and wherever the step is in the dataset: before an absorbing state, before the horizon, before the end of the dataset, with other episodes around it. The value targets are then unbiased estimates of the values. If the critic is wrong by at most eps, the expected target of compute_gae is wrong by at most gamma*eps, and with lambda = 1 by at most gamma^k*eps when k steps are observed.", "quantifier": "every finite decision process and policy, every critic, discount factor, lambda, limit on the steps that follow, position in the dataset and surrounding steps", "why_tests_cant": "Expectations over all the continuations of a trajectory, for all critics and all positions in a dataset.", "anchors": ["mushroom_rl/rl_utils/value_functions.py:compute_gae", "mushroom_rl/rl_utils/value_functions.py:compute_advantage_montecarlo", "mushroom_rl/rl_utils/value_functions.py:compute_advantage"]}
{"id": "C158", "title": "Prioritized replay draws transitions in proportion to their priorities, and the weights undo it", "statement": "A batch of n transitions drawn from a PrioritizedReplayMemory contains each stored transition n * p_i / sum(p) times on average, and slots that have not been filled are never drawn. With beta = 1 the importance weights undo the prioritization: the expected weighted sum of any quantity over the batch is the one of a batch drawn uniformly from the memory.", "quantifier": "every history of add and update calls, every batch size, every priority and every quantity that is averaged", "why_tests_cant": "Expectations over the uniform draws from the segments of the batch and over the random choices made in the tree, for all priorities.", "anchors": ["mushroom_rl/rl_utils/replay_memory.py:PrioritizedReplayMemory.get", "mushroom_rl/rl_utils/replay_memory.py:SumTree.get_ind", "mushroom_rl/rl_utils/replay_memory.py:SumTree._retrieve"]}
{"id": "C159", "title": "Weighted Q-learning converges to the optimal values", "statement": "With learning rates that satisfy the conditions of Robbins and Monro and every pair visited forever, the table of WeightedQLearning converges almost surely to the optimal action values, its greedy actions become optimal, and the standard deviations of its estimator become as small as the agent lets them be.", "quantifier": "every finite problem with random transitions, exploration, learning rates, precision and way of breaking ties, with probability one over next states and normal samples", "why_tests_cant": "Almost sure limits of an infinite random sequence, with normal samples whose scale depends on the whole history.", "anchors": ["mushroom_rl/algorithms/value/td/weighted_q_learning.py:WeightedQLearning._update", "mushroom_rl/algorithms/value/td/weighted_q_learning.py:WeightedQLearning._next_q"]}
{"id": "C160", "title": "Speedy Q-learning converges to the optimal values", "statement": "With learning rates that satisfy the conditions of Robbins and Monro and every pair visited forever, the table of SpeedyQLearning converges almost surely to the optimal action values.", "quantifier": "every finite problem with random transitions, every exploration and learning rates, with probability one over the next states", "why_tests_cant": "Almost sure limits of an infinite random sequence of updates.", "anchors": ["mushroom_rl/algorithms/value/td/speedy_q_learning.py:SpeedyQLearning._update"]}
{"id": "C161", "title": "RQ-learning converges to the optimal values", "statement": "With learning rates that satisfy the conditions of Robbins and Monro and every pair visited forever, the table of RQLearning converges almost surely: with off_policy to the optimal action values, and otherwise, with a fixed policy, to the action values of the policy.", "quantifier": "every finite problem with random transitions, every exploration and both learning rates, with probability one over the next states and actions", "why_tests_cant": "Almost sure limits of an infinite random sequence of updates.", "anchors": ["mushroom_rl/algorithms/value/td/rq_learning.py:RQLearning._update", "mushroom_rl/algorithms/value/td/rq_learning.py:RQLearning._next_q"]}
{"id": "C162", "title": "R-learning learns the largest average reward", "statement": "RLearning learns the largest average reward per step that can be earned, and its greedy actions earn it.", "quantifier": "every finite problem with random transitions, every exploration, all learning rates and every beta", "why_tests_cant": "An average over infinitely many steps, and limits of an infinite random sequence of updates.", "anchors": ["mushroom_rl/algorithms/value/td/r_learning.py:RLearning._update", "mushroom_rl/algorithms/value/td/r_learning.py:RLearning.__init__"]}
{"id": "C163", "title": "Observations of MuJoCo environments tell and set the state of the simulator", "statement": "What is written with _write_data is read back with _read_data. reset(obs) puts the simulation in the state the observation describes and returns obs, so that an observation with all the joints restores the state it was taken from. All the parts of an observation describe the same state of the simulator.", "quantifier": "every model, every state of the simulator, every observation specification with removed entries, every observation and number of steps", "why_tests_cant": "Depends on which arrays are views of the simulator and on when the simulator computes them, for every specification and history.", "anchors": ["mushroom_rl/utils/mujoco/observation_helper.py:ObservationHelper.get_state", "mushroom_rl/utils/mujoco/observation_helper.py:ObservationHelper._modify_data", "mushroom_rl/utils/mujoco/observation_helper.py:ObservationHelper._build_obs", "mushroom_rl/environments/mujoco.py:MuJoCo.reset", "mushroom_rl/environments/mujoco.py:MuJoCo.setup", "mushroom_rl/environments/mujoco.py:MuJoCo._write_data", "mushroom_rl/environments/mujoco.py:MuJoCo._read_data"]}
{"id": "C164", "title": "The plot window shows what is ticked, with its limits", "statement": "However the user clicks on the entries of the plot window, the plots it shows are the ticked ones, and each plot contains exactly its ticked curves with their limits, at the heights that were given, dotted or solid, in the colour of the curve; what was drawn disappears when it is unticked. Curves keep a given pen and name; otherwise they get different colours and the names of their buffers. The lists of limits given by the caller are not changed.", "quantifier": "every number of plots and curves, every list of limits and dotted flags, every choice of random colours and every sequence of clicks", "why_tests_cant": "Sequences of clicks and combinations of limits are unbounded, and colours are random.", "anchors": ["mushroom_rl/utils/plots/plot_item_buffer.py:PlotItemBuffer", "mushroom_rl/utils/plots/plot_item_buffer.py:PlotItemBufferLimited", "mushroom_rl/utils/plots/window.py:Window"]}
{"id": "C165", "title": "What the distributional agents learn", "statement": "If QuantileDQN minimises its loss for a state and action, its predictions are the quantiles of the sampled targets of the levels (2k+1)/(2n). If CategoricalDQN or Rainbow minimise theirs, the predicted distribution is the mean of the sampled target distributions, so that the action value is the mean of their expected values.", "quantifier": "every batch size, number of quantiles or atoms, every targets and every minimiser of the loss", "why_tests_cant": "A statement about all minimisers of a loss over all predictions and all samples of targets.", "anchors": ["mushroom_rl/algorithms/value/dqn/quantile_dqn.py:quantile_huber_loss", "mushroom_rl/algorithms/value/dqn/quantile_dqn.py:QuantileDQN", "mushroom_rl/algorithms/value/dqn/categorical_dqn.py:categorical_loss"]}
{"id": "C166", "title": "Q(lambda) gives no credit through exploratory actions", "statement": "The Q(lambda) agent follows Watkins' algorithm: the errors after an exploratory action do not change the values of the pairs visited before it, so that it learns off-policy.", "quantifier": "every episode, table, learning rate, trace type and trace coefficient", "why_tests_cant": "A statement about all histories of greedy and exploratory actions.", "anchors": ["mushroom_rl/algorithms/value/td/q_lambda.py:QLambda", "mushroom_rl/rl_utils/eligibility_trace.py:ReplacingTrace", "mushroom_rl/rl_utils/eligibility_trace.py:AccumulatingTrace"]}
{"id": "C167", "title": "Agents that are special cases of each other cannot be told apart", "statement": "In any session of calls of learn and evaluate the following pairs of agents execute the same actions, collect the same datasets, raise the same exceptions and end with the same action values, if they start with the same ones: SARSALambdaContinuous with one feature per state and action and SARSALambda with accumulating traces; SARSALambda with lambda 0 (either trace) and SARSA; QLambda with lambda 0 (either trace) and QLearning; TrueOnlineSARSALambda and SARSALambdaContinuous with lambda 0 and any features; ExpectedSARSA with a policy that only gives weight to the best actions and QLearning.", "quantifier": "every environment, policy that reads the action values, learning rate schedule, discount, lambda (first pair), features (fourth pair), preprocessors, callbacks, earlier calls and sequence of calls", "why_tests_cant": "Equality of two programs over all sessions; a test compares a few runs with a few seeds.", "anchors": ["mushroom_rl/core/core.py:Core.learn", "mushroom_rl/core/core.py:Core.evaluate", "mushroom_rl/algorithms/value/td/sarsa_lambda_continuous.py:SARSALambdaContinuous", "mushroom_rl/algorithms/value/td/sarsa_lambda.py:SARSALambda", "mushroom_rl/algorithms/value/td/true_online_sarsa_lambda.py:TrueOnlineSARSALambda", "mushroom_rl/algorithms/value/td/q_lambda.py:QLambda", "mushroom_rl/algorithms/value/td/q_learning.py:QLearning", "mushroom_rl/algorithms/value/td/sarsa.py:SARSA", "mushroom_rl/algorithms/value/td/expected_sarsa.py:ExpectedSARSA"]}
{"id": "C168", "title": "Callbacks that only observe do not change a run", "statement": "Adding any callbacks that read what they are given and the rest of the program, but change only their own memory, leaves every session of calls of learn and evaluate as it is: the same actions, events, datasets, fits and exceptions, and the same final state of agent, environment and Core.", "quantifier": "every program, step callback, list of fit callbacks, earlier calls and sequence of calls", "why_tests_cant": "Non-interference compares all runs of two programs.", "anchors": ["mushroom_rl/core/core.py:Core._run", "mushroom_rl/core/core.py:Core.__init__", "mushroom_rl/utils/callbacks/callback.py:Callback"]}
{"id": "C169", "title": "When deep Q-learning agents of different classes learn the same", "statement": "Given the same networks, memory and datasets: DoubleDQN with target_update_frequency 1 is DQN, and with frequency 2 it need not be; AveragedDQN is DQN up to and including the fit that first updates its target, and need not be at the next one; with gamma 0 DQN, DoubleDQN and AveragedDQN with any positive frequencies learn the same; clip_reward makes no difference if the rewards in the memory are between -1 and 1. The same means: the same network, replay memory (with priorities and random generator) and number of updates after every sequence of fits, and the same exceptions.", "quantifier": "every approximator, replay memory (uniform or prioritised), discount factor, frequency, initial weights and sequence of datasets", "why_tests_cant": "Equality of two programs over all sequences of fits; a test compares a few runs with a few seeds.", "anchors": ["mushroom_rl/algorithms/value/dqn/abstract_dqn.py:AbstractDQN.fit", "mushroom_rl/algorithms/value/dqn/dqn.py:DQN", "mushroom_rl/algorithms/value/dqn/double_dqn.py:DoubleDQN", "mushroom_rl/algorithms/value/dqn/averaged_dqn.py:AveragedDQN"]}
{"id": "C170", "title": "One call of learn or evaluate can be replaced by two", "statement": "Calling learn for a and then for b steps or episodes does the same as one call for a + b: the same resets, actions, transitions and fits in the same order, and the same agent and environment afterwards. Likewise two evaluations give the episodes of one, also from the two parts of a list of initial states.", "quantifier": "every environment, agent, preprocessors, callbacks, horizon, fit period, earlier calls and numbers a and b", "why_tests_cant": "Equality of two programs over all runs; a test compares a few numbers with one environment.", "anchors": ["mushroom_rl/core/core.py:Core.learn", "mushroom_rl/core/core.py:Core.evaluate", "mushroom_rl/core/core.py:Core._run", "mushroom_rl/core/_impl/core_logic.py:CoreLogic.initialize_run", "mushroom_rl/core/_impl/core_logic.py:CoreLogic.get_initial_state"]}
{"id": "C171", "title": "What SAC learns", "statement": "With the temperature fixed: critics of SAC that predict the expectation of the targets computed from themselves predict the soft values of the policy (the expected discounted sum of rewards, plus the temperature times the entropy of the policy in the states that follow), both of them, and an error of the target critics is reduced by the discount in every target. The expected loss of the actor is smallest exactly for the density proportional to the exponential of the lesser prediction of the critics divided by the temperature; a policy with a smaller loss in every state has nowhere smaller soft values; critics and actor that both have nothing left to improve have the largest soft values of all policies; and if critics and actor are trained to the end in turns, the distance from them shrinks by the discount in every round.", "quantifier": "all problems with finitely many states, any measurable set of actions with a finite measure, bounded rewards and discount below one; all policies with densities and finite entropy; all actors, critics and temperatures; any number of rounds", "why_tests_cant": "the claims are about expectations over continuous actions and about all policies", "anchors": ["mushroom_rl/algorithms/actor_critic/deep_actor_critic/sac.py:SAC.fit", "mushroom_rl/algorithms/actor_critic/deep_actor_critic/sac.py:SAC._next_q", "mushroom_rl/algorithms/actor_critic/deep_actor_critic/sac.py:SAC._loss", "mushroom_rl/algorithms/actor_critic/deep_actor_critic/sac.py:SACPolicy.compute_action_and_log_prob_t"]}
{"id": "C172", "title": "What DDPG and TD3 learn", "statement": "A critic of DDPG that predicts the expectation of the targets computed from itself predicts the action values of the actor; an error of at most d in the former is an error of at most d/(1-gamma) in the latter. If moreover the loss of the actor is in every state within e of that of any action, no policy, deterministic or not, has an expected return greater by more than (2d+e)/(1-gamma); an actor with nowhere larger loss has nowhere smaller values. The two critics of TD3, when they predict the expectation of their targets, predict the values of the policy that adds the clipped noise to the actions, not those of the actor. If the first critic changes by at most L per unit of the action, it does not overestimate the actor, and no policy is better than the actor by more than gamma L c/(1-gamma), c being the limit of the noise, plus terms for the errors. Without such an L the actor can be worse than another policy although critics and actor have nothing left to learn. With a fixed actor, a constant coefficient tau and critics linear in their weights, whose fits predict the expected targets with an error of at most d, the error of the target critics after k fits is at most (1-tau(1-gamma))^k times the initial one plus d/(1-gamma).", "quantifier": "all problems with finitely many states, any measurable set of actions (vectors of reals for TD3), bounded rewards and discount below one; all policies; all actors, critics, errors, distributions of the noise and limits of the actions", "why_tests_cant": "the claims are about expectations over continuous noise and about all policies", "anchors": ["mushroom_rl/algorithms/actor_critic/deep_actor_critic/ddpg.py:DDPG.fit", "mushroom_rl/algorithms/actor_critic/deep_actor_critic/ddpg.py:DDPG._loss", "mushroom_rl/algorithms/actor_critic/deep_actor_critic/ddpg.py:DDPG._next_q", "mushroom_rl/algorithms/actor_critic/deep_actor_critic/td3.py:TD3._loss", "mushroom_rl/algorithms/actor_critic/deep_actor_critic/td3.py:TD3._next_q"]}
{"id": "C173", "title": "What the deep Q-learning agents learn", "statement": "A network of DQN predicts, for every state and action, the expectation of the targets computed from itself if and only if it predicts the optimal action values of the problem; if rewards are clipped, of the problem with clipped rewards. The same holds for DoubleDQN when the target network has the weights of the network, and for AveragedDQN when all target networks in use have them. For DQN an error of at most d in predicting the expected targets is an error of at most d/(1-gamma) in predicting the optimal values, and any policy that only takes actions with the largest prediction loses at most 2d/(1-gamma); if every network of MaxminDQN predicts the expected targets within d, every one of them predicts the optimal values within d/(1-gamma). In a run of DQN in which the network predicts the expectation of the last targets within d whenever the target network is updated, the error of the target network after k calls of fit is at most gamma^(k/freq) times the initial one, plus d/(1-gamma); for AveragedDQN with n networks it is gamma^(k/freq/n) for all target networks in use.", "quantifier": "all problems with finitely many states and actions, random next states and absorbing transitions, and discount below one; all networks, memories, datasets, update frequencies, numbers of networks and errors; runs of any length", "why_tests_cant": "the claims are about expectations over the next state, about the optimal values, and about runs of any length", "anchors": ["mushroom_rl/algorithms/value/dqn/abstract_dqn.py:AbstractDQN.fit", "mushroom_rl/algorithms/value/dqn/abstract_dqn.py:AbstractDQN._update_target", "mushroom_rl/algorithms/value/dqn/dqn.py:DQN._next_q", "mushroom_rl/algorithms/value/dqn/double_dqn.py:DoubleDQN._next_q", "mushroom_rl/algorithms/value/dqn/averaged_dqn.py:AveragedDQN._next_q", "mushroom_rl/algorithms/value/dqn/averaged_dqn.py:AveragedDQN._update_target", "mushroom_rl/algorithms/value/dqn/maxmin_dqn.py:MaxminDQN.fit"]}
{"id": "C174", "title": "Conversions of rotations", "statement": "euler_to_mat gives a rotation matrix; euler_to_quat gives a unit quaternion [w, x, y, z] that turns every vector as this matrix does. mat_to_euler gives, for every rotation matrix, angles of the same rotation, in a gimbal lock too, and gives back the angles of euler_to_mat if they are in the principal range. quat_to_euler fails only for the zero quaternion and otherwise gives angles of the rotation of the normalised quaternion; a unit quaternion converted to angles and back is the same up to its sign. Batches are converted like single rotations, one per column.", "quantifier": "all angles, all quaternions, all rotation matrices, batches of any size", "why_tests_cant": "the claims are about all rotations, with gimbal locks and branch cuts", "anchors": ["mushroom_rl/utils/angles.py:quat_to_euler", "mushroom_rl/utils/angles.py:euler_to_quat", "mushroom_rl/utils/angles.py:mat_to_euler", "mushroom_rl/utils/angles.py:euler_to_mat"]}
{"id": "C175", "title": "Callbacks with parallel environments", "statement": "With parallel environments, callbacks that only use their own memory change nothing in a run: the transitions, the fits and the errors are those of the run without them. The step callback is called once per step, in order, with the samples of the environments; the fit callbacks are called once per fit, with a dataset from which flatten(n_steps_per_fit) gives what the fit has received; every step call comes after the calls of exactly the earlier fits. CollectDataset holds exactly what the fits have received, every transition once. The step callback receives transitions only.", "quantifier": "all environments, agents and policies, all numbers of environments, all parameters of learn, any number of iterations, all callbacks", "why_tests_cant": "the order of calls and the absence of interference must hold for every schedule of episodes over the environments", "anchors": ["mushroom_rl/core/vectorized_core.py:VectorCore._run", "mushroom_rl/core/vectorized_core.py:VectorCore.__init__", "mushroom_rl/utils/callbacks/collect_dataset.py:CollectDataset.__call__", "mushroom_rl/core/dataset.py:VectorizedDataset.flatten", "mushroom_rl/core/dataset.py:VectorizedDataset.clear"]}
{"id": "C176", "title": "Mean curves and confidence bands", "statement": "For several runs, get_mean_and_confidence and plot_mean_conf give at every epoch the mean of the runs and a band around it: the band contains exactly the true means that a two-sided t-test at level 5% does not reject, and for runs whose t statistic has Student's law it contains the true mean with a probability of exactly 95%. Other units move and scale the curve and the band accordingly; the result at an epoch depends on the values of the runs at this epoch only, in any order. Every epoch has a band.", "quantifier": "all numbers of runs and epochs, all real data, all laws of random runs with Student's t statistic", "why_tests_cant": "coverage is a statement about all possible outcomes of random runs; equivariance and the test duality concern all data", "anchors": ["mushroom_rl/utils/plot.py:get_mean_and_confidence", "mushroom_rl/utils/plot.py:plot_mean_conf"]}
{"id": "C177", "title": "What PGPE follows", "statement": "PGPE draws the policy parameters of every episode from a Gaussian and moves the parameters of the Gaussian along an estimated gradient. The expected return of the episodes is differentiable in the parameters of the Gaussian (the mean for a fixed covariance, the mean and the standard deviations for a diagonal one, the mean and the entries of the factor for a Cholesky factor), even if the return is not continuous in the policy parameters, and as the number of episodes per update grows the gradient PGPE gives to its optimizer, with the baseline computed from the same episodes, converges almost surely to the gradient of this expected return.", "quantifier": "all Gaussians with a positive definite covariance, all numbers of parameters, all bounded random returns, almost every infinite sequence of independent episodes", "why_tests_cant": "convergence is a statement about almost every infinite sequence of random episodes, and differentiability about all returns", "anchors": ["mushroom_rl/algorithms/policy_search/black_box_optimization/pgpe.py:PGPE._update", "mushroom_rl/distributions/gaussian.py:GaussianDistribution.diff_log", "mushroom_rl/distributions/gaussian.py:GaussianDiagonalDistribution.diff_log", "mushroom_rl/distributions/gaussian.py:GaussianCholeskyDistribution.diff_log"]}
{"id": "C178", "title": "What RWR improves", "statement": "RWR draws the policy parameters of every episode from a Gaussian and refits the Gaussian with the episodes weighted by the exponential of beta times the return. As the number of episodes per update grows, the parameters it fits converge almost surely to limits, and with the limits the expected exponential of beta times the return is never lower than before the update, and strictly higher unless the limits are the parameters from before. The expected return itself is not what is improved: it can be lower with the limits than before the update, even for bounded returns.", "quantifier": "all Gaussians (fixed, diagonal or full covariance) with a positive definite covariance, all numbers of parameters, all beta and random returns for which beta times the return is bounded above, almost every infinite sequence of independent episodes", "why_tests_cant": "convergence is a statement about almost every infinite sequence of random episodes, and the improvement about all returns", "anchors": ["mushroom_rl/algorithms/policy_search/black_box_optimization/rwr.py:RWR._update", "mushroom_rl/distributions/gaussian.py:GaussianDistribution.mle", "mushroom_rl/distributions/gaussian.py:GaussianDiagonalDistribution.mle", "mushroom_rl/distributions/gaussian.py:GaussianCholeskyDistribution.mle"]}
{"id": "C179", "title": "When the fit of a full covariance fails", "statement": "RWR and REPS with a Gaussian with a full covariance raise exactly if the parameters of the episodes of the update lie in a common hyperplane, whatever the returns are; in particular whenever there are not more episodes than parameters; with more episodes, drawn independently from the distribution, they succeed with probability one. Otherwise the new mean and covariance are the weighted ones. An update that raises leaves the distribution as it was before.", "quantifier": "all numbers of parameters and episodes, all parameters, returns and temperatures, all distributions", "why_tests_cant": "with enough episodes the failing inputs form a set of probability zero, which no finite number of runs can show, and what a failed call leaves behind is seldom looked at", "anchors": ["mushroom_rl/distributions/gaussian.py:GaussianCholeskyDistribution.mle", "mushroom_rl/distributions/gaussian.py:GaussianCholeskyDistribution.con_wmle", "mushroom_rl/algorithms/policy_search/black_box_optimization/rwr.py:RWR._update", "mushroom_rl/algorithms/policy_search/black_box_optimization/reps.py:REPS._update"]}
{"id": "C180", "title": "REPS keeps to its bound when there are many episodes", "statement": "As the number of episodes of an update grows, REPS with a Gaussian changes the distribution by a divergence of at most eps, up to an error that vanishes almost surely, although it only imposes the bound on the weights of the episodes. The multipliers converge to the only one for which the weighted law of an episode has the divergence eps from its law; there is one for every positive eps below the divergence of some other multiplier. The dual function has a minimum near it from some number of episodes on, and its minima are the points where the derivative vanishes that REPS computes. The expected exponential of the return divided by this multiplier does not fall.", "quantifier": "all numbers of parameters, all means and positive definite covariances, all bounded random returns that are not almost surely constant, all positive bounds that a multiplier attains, all minimisers whose results make the derivative of the dual function tend to zero, almost all infinite sequences of episodes", "why_tests_cant": "the bound fails for finitely many episodes, so that a test can neither show that it holds nor that it does not; it is a statement about the limit of random updates", "anchors": ["mushroom_rl/algorithms/policy_search/black_box_optimization/reps.py:REPS._update", "mushroom_rl/algorithms/policy_search/black_box_optimization/reps.py:REPS._dual_function_diff", "mushroom_rl/distributions/gaussian.py:GaussianDistribution.mle", "mushroom_rl/distributions/gaussian.py:GaussianCholeskyDistribution.mle"]}
{"id": "C181", "title": "Repeated updates of RWR settle", "statement": "If RWR is repeated with so many episodes per update that each update reaches its limit, the expected exponential of beta times the return never falls and converges, and the divergences of each new distribution from the one before have a finite sum, bounded by the logarithm of the largest possible value of that expectation over its first value, so that they tend to zero.", "quantifier": "all numbers of parameters and updates, all means and positive definite covariances, all random returns whose exponential is bounded", "why_tests_cant": "it is about infinitely many updates with infinitely many episodes each, for all environments", "anchors": ["mushroom_rl/algorithms/policy_search/black_box_optimization/rwr.py:RWR._update", "mushroom_rl/distributions/gaussian.py:GaussianCholeskyDistribution.mle"]}
{"id": "C182", "title": "Calls after an exception start afresh", "statement": "If an exception of the environment, the policy, the learning rule, a preprocessor or a callback (or an interrupt by the user) escapes from learn or evaluate, everything was in order until then: the episodes are chained, each fit got a complete block of transitions and less than a further block, or that of the failing fit, is lost. Every later call of learn or evaluate on the same Core does the same resets, steps and fits, and returns the same dataset, as on a new Core around the same agent and environment.", "quantifier": "all systems, all places of the loop at which an exception can escape and all worlds it can leave, all arguments of the interrupted and of the later call", "why_tests_cant": "the exception can come at any of unboundedly many places, with any state left behind", "anchors": ["mushroom_rl/core/core.py:Core._run", "mushroom_rl/core/core.py:Core._reset", "mushroom_rl/core/core.py:Core._step", "mushroom_rl/core/_impl/core_logic.py:CoreLogic.initialize_run"]}
{"id": "C183", "title": "Programs that are killed, or fail, while they log", "statement": "Wherever a program is killed while it uses a logger, everything that was logged before can still be read: the best agent is on disk, the values can be continued with append=True. If saving the best agent raises, the best of the agents that could be saved is on disk, and a file that was not saved completely is refused by load.", "quantifier": "all sequences of calls of the logger, all places in the next call at which the program can be killed, all contents and names", "why_tests_cant": "the program can be killed at any of unboundedly many places", "anchors": ["mushroom_rl/core/logger/data_logger.py:DataLogger.log_numpy", "mushroom_rl/core/logger/data_logger.py:DataLogger.log_best_agent", "mushroom_rl/core/logger/data_logger.py:DataLogger._load_numpy", "mushroom_rl/core/serialization.py:Serializable.save", "mushroom_rl/core/serialization.py:Serializable.load"]}
