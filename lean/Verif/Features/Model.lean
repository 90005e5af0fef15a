/-
Model of common/crubit_feature.rs: the feature flags, their names, and the resolution of a
deserialized list of names.  `flagset::FlagSet<CrubitFeature>` (u32) is a 32-bit vector; flag number
i of the enum is bit i.  serde itself is not modelled: the input is the list of names.
-/
namespace Verif.Features

/-- `CrubitFeature`, lines 9-79 (order matters: flagset numbers the bits by declaration order). -/
inductive Feature
  | supported | wrapper | types | experimental | assumeLifetimes | assumeThisLifetimes
  | noAssumeLifetimes | unsafeView | checkDefaultInitialized | leadingColonsForCppType
  | templateInstantiation | layoutCompatTuple | alwaysSpecializeGenericsInCppApiFromRust
  | recordImplDebug | ctorPlainValues | reserveStandardMacros | thunklessAccessors | ooCasting
  | asyncFnSendModuloRegions
deriving DecidableEq, Repr

/-- All flags, in declaration order. -/
def Feature.all : List Feature :=
  [.supported, .wrapper, .types, .experimental, .assumeLifetimes, .assumeThisLifetimes,
   .noAssumeLifetimes, .unsafeView, .checkDefaultInitialized, .leadingColonsForCppType,
   .templateInstantiation, .layoutCompatTuple, .alwaysSpecializeGenericsInCppApiFromRust,
   .recordImplDebug, .ctorPlainValues, .reserveStandardMacros, .thunklessAccessors, .ooCasting,
   .asyncFnSendModuloRegions]

/-- `FlagSet<CrubitFeature>` over `u32`. -/
abbrev FlagSet := BitVec 32

/-- Bit index of a flag (declaration order). -/
def Feature.idx (f : Feature) : Nat := Feature.all.idxOf f

/-- flagset: `From<CrubitFeature>`. -/
def Feature.toSet (f : Feature) : FlagSet := BitVec.twoPow 32 f.idx

/-- flagset: `FlagSet::full()`. -/
def FlagSet.full : FlagSet := Feature.all.foldl (fun s f => s ||| f.toSet) 0#32

/-- flagset: `a - b` is `a & !b`. -/
def FlagSet.sub (a b : FlagSet) : FlagSet := a &&& ~~~b

/-- flagset: `contains(flag)`: `self.0 & flag == flag`. -/
def FlagSet.contains (a : FlagSet) (f : Feature) : Bool := (a &&& f.toSet) == f.toSet

/-- `CrubitFeature::short_name`, lines 88-112. -/
def Feature.shortName : Feature → String
  | .supported => "supported"
  | .wrapper => "wrapper"
  | .types => "types"
  | .experimental => "experimental"
  | .assumeLifetimes => "assume_lifetimes"
  | .assumeThisLifetimes => "assume_this_lifetimes"
  | .noAssumeLifetimes => "no_assume_lifetimes"
  | .unsafeView => "unsafe_view"
  | .checkDefaultInitialized => "check_default_initialized"
  | .leadingColonsForCppType => "leading_colons_for_cpp_type"
  | .templateInstantiation => "template_instantiation"
  | .layoutCompatTuple => "layout_compat_tuple"
  | .alwaysSpecializeGenericsInCppApiFromRust => "always_specialize_generics_in_cpp_api_from_rust"
  | .recordImplDebug => "record_impl_debug"
  | .ctorPlainValues => "ctor_plain_values"
  | .reserveStandardMacros => "reserve_standard_macros"
  | .thunklessAccessors => "thunkless_accessors"
  | .ooCasting => "oo_casting"
  | .asyncFnSendModuloRegions => "async_fn_send_modulo_regions"

/-- `CrubitFeature::aspect_hint`, lines 117-153. -/
def Feature.aspectHint : Feature → String
  | .supported => "//features:supported"
  | .wrapper => "//features:wrapper"
  | .types => "//features:types"
  | .experimental => "//features:experimental"
  | .assumeLifetimes => "//features:assume_lifetimes"
  | .assumeThisLifetimes => "//features:assume_this_lifetimes"
  | .noAssumeLifetimes => "//features:no_assume_lifetimes"
  | .unsafeView => "//features:unsafe_view"
  | .checkDefaultInitialized => "//features:check_default_initialized"
  | .leadingColonsForCppType => "//features:leading_colons_for_cpp_type"
  | .templateInstantiation => "//features:template_instantiation"
  | .layoutCompatTuple => "//features:layout_compat_tuple"
  | .alwaysSpecializeGenericsInCppApiFromRust => "//features:always_specialize_generics_in_cpp_api_from_rust"
  | .recordImplDebug => "//features:record_impl_debug"
  | .ctorPlainValues => "//features:ctor_plain_values"
  | .reserveStandardMacros => "//features:reserve_standard_macros"
  | .thunklessAccessors => "//features:thunkless_accessors"
  | .ooCasting => "//features:oo_casting"
  | .asyncFnSendModuloRegions => "//features:async_fn_send_modulo_regions"

/-- `named_features`, lines 157-198. -/
def namedFeatures (name : String) : Option FlagSet :=
  match name with
  | "all" =>
    some ((((FlagSet.full.sub Feature.noAssumeLifetimes.toSet).sub Feature.layoutCompatTuple.toSet).sub
      Feature.alwaysSpecializeGenericsInCppApiFromRust.toSet).sub Feature.ooCasting.toSet)
  | "supported" => some (Feature.supported.toSet ||| Feature.types.toSet)
  | "wrapper" => some Feature.wrapper.toSet
  | "types" => some Feature.types.toSet
  | "experimental" => some Feature.experimental.toSet
  | "assume_lifetimes" => some Feature.assumeLifetimes.toSet
  | "assume_this_lifetimes" => some Feature.assumeThisLifetimes.toSet
  | "no_assume_lifetimes" => some Feature.noAssumeLifetimes.toSet
  | "unsafe_view" => some Feature.unsafeView.toSet
  | "check_default_initialized" => some Feature.checkDefaultInitialized.toSet
  | "leading_colons_for_cpp_type" => some Feature.leadingColonsForCppType.toSet
  | "template_instantiation" => some Feature.templateInstantiation.toSet
  | "layout_compat_tuple" => some Feature.layoutCompatTuple.toSet
  | "always_specialize_generics_in_cpp_api_from_rust" =>
    some Feature.alwaysSpecializeGenericsInCppApiFromRust.toSet
  | "record_impl_debug" => some Feature.recordImplDebug.toSet
  | "ctor_plain_values" => some Feature.ctorPlainValues.toSet
  | "reserve_standard_macros" => some Feature.reserveStandardMacros.toSet
  | "thunkless_accessors" => some Feature.thunklessAccessors.toSet
  | "oo_casting" => some Feature.ooCasting.toSet
  | "async_fn_send_modulo_regions" => some Feature.asyncFnSendModuloRegions.toSet
  | _ => none

/-- `SerializedCrubitFeatures::resolved`, lines 237-243. -/
def resolved (features : FlagSet) : FlagSet :=
  let features := if features.contains .noAssumeLifetimes then features.sub Feature.assumeLifetimes.toSet else features
  features.sub Feature.noAssumeLifetimes.toSet

/-- The loop of `visit_seq`, lines 259-270; `none` is the deserialization error (`?`). -/
def visitLoop (result : FlagSet) : List String → Option FlagSet
  | [] => some result
  | n :: ns =>
    match namedFeatures n with
    | none => none
    | some flags => visitLoop (result ||| flags) ns

/-- `SerializedCrubitFeatures::deserialize` on a list of names. -/
def deserialize (names : List String) : Option FlagSet := (visitLoop 0#32 names).map resolved

end Verif.Features
