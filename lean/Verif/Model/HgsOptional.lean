import Mathlib.Algebra.Order.Field.Basic

/-! # Model of the scaled coordinates of HGS, `algorithms/HGS/HGS_optional.py` lines 95-120 -/

namespace Evogil.HgsOptional

variable {K : Type*} [Field K] [LinearOrder K]

/-- `scaled_domain`, HGS_optional.py:95-96 -/
def scaledDomain (dims : List (K × K)) (eta : K) : List (K × K) :=
  dims.map fun d => (0, (d.2 - d.1) / eta)

/-- `code`, HGS_optional.py:99-100 -/
def code (xs : List K) (eta : K) (dims : List (K × K)) : List K :=
  (xs.zip dims).map fun p => eta * p.1 + p.2.1

/-- `code_all`, HGS_optional.py:103-104 -/
def codeAll (vectors : List (List K)) (eta : K) (dims : List (K × K)) : List (List K) :=
  vectors.map fun xs => code xs eta dims

/-- `decode`, HGS_optional.py:107-108 -/
def decode (xs : List K) (eta : K) (dims : List (K × K)) : List K :=
  (xs.zip dims).map fun p => (p.1 - p.2.1) / eta

/-- `decode_all`, HGS_optional.py:111-112 -/
def decodeAll (vectors : List (List K)) (eta : K) (dims : List (K × K)) : List (List K) :=
  vectors.map fun xs => decode xs eta dims

/-- `scale`, HGS_optional.py:115-116 -/
def scale (xs : List K) (etaFrom etaTo : K) : List K :=
  xs.map fun x => (etaFrom / etaTo) * x

/-- `scale_all`, HGS_optional.py:119-120 -/
def scaleAll (vectors : List (List K)) (etaFrom etaTo : K) : List (List K) :=
  vectors.map fun xs => scale xs etaFrom etaTo

end Evogil.HgsOptional
