import Verif.Prelude

/-!
# What a call of a driver class needs and takes

The keyword arguments of the classes as a user reads them: the constructors of the class and of its base
classes together.
-/

namespace Evogil.Spec

/-- Arguments that every driver needs. -/
def common : List String := ["population", "dims", "fitnesses", "mutation_eta", "crossover_eta"]

/-- Arguments without a default. -/
def needs : String → List String
  | "SPEA2" | "OMOPSO" | "NSLS" => common ++ ["mutation_rate", "crossover_rate"]
  | "NSGAIII" => common
  | "IBEA" => common ++ ["mutation_rate", "crossover_rate", "kappa", "mating_population_size"]
  | "NSGAII" => common ++ ["mutation_rate", "crossover_rate", "mating_population_size"]
  | "JGBL" => common ++ ["mutation_rate", "crossover_rate", "mating_population_size", "jumping_rate",
      "jumping_percentage"]
  | "SMSEMOA" => common ++ ["mutation_rate", "crossover_rate", "reference_point"]
  | "IMGA" => common ++ ["mutation_rate", "crossover_rate", "islands_number", "migrants_number",
      "epoch_length", "driver", "driver_message_adapter_factory"]
  | "HGS" | "DHGS" => ["population", "dims", "fitnesses", "fitness_errors", "cost_modifiers", "driver",
      "driver_message_adapter_factory", "mutation_etas", "crossover_etas", "mutation_rates",
      "crossover_rates", "reference_point", "mantissa_bits", "min_progress_ratio"]
  | _ => []

/-- Arguments with a default. -/
def takes : String → List String
  | "SPEA2" | "IBEA" | "NSGAII" | "JGBL" =>
    ["trim_function", "fitness_archive", "message_adapter_factory"]
  | "OMOPSO" => ["trim_function", "fitness_archive", "message_adapter_factory", "mutation_perturbation",
      "mutation_probability"]
  | "NSLS" => ["trim_function", "fitness_archive", "message_adapter_factory", "local_search_mu",
      "local_search_sigma"]
  | "NSGAIII" => ["trim_function", "fitness_archive", "message_adapter_factory", "mutation_rate",
      "crossover_rate", "theta"]
  | "SMSEMOA" => ["trim_function", "fitness_archive", "message_adapter_factory",
      "epoch_length_multiplier"]
  | "IMGA" => ["topology", "message_adapter_factory"]
  | "HGS" | "DHGS" => ["message_adapter_factory", "hgs_type", "metaepoch_len", "max_level",
      "max_sprouts_no", "sproutiveness", "comparison_multipliers", "population_sizes"]
  | _ => []

/-- A call of the class with these keyword arguments is accepted. -/
def Accepted (cls : String) (keys : List (List Char)) : Prop :=
  (∀ k ∈ needs cls, k.toList ∈ keys) ∧ ∀ k ∈ keys, k ∈ (needs cls ++ takes cls).map String.toList

/-- The keyword arguments that an HGS node determines for its driver. -/
def nodeKeys : List String :=
  ["population", "dims", "fitnesses", "mutation_eta", "mutation_rate", "crossover_eta", "crossover_rate",
    "fitness_archive", "trim_function", "message_adapter_factory"]

/-- The keyword arguments that a node of the distributed HGS determines for its driver. -/
def distributedKeys : List String :=
  ["population", "dims", "fitnesses", "mutation_eta", "mutation_rate", "crossover_eta", "crossover_rate",
    "trim_function", "message_adapter_factory"]

/-- The keyword arguments that an island determines for its driver. -/
def islandKeys : List String :=
  ["population", "dims", "fitnesses", "mutation_rate", "mutation_eta", "crossover_rate", "crossover_eta",
    "message_adapter_factory"]

end Evogil.Spec
