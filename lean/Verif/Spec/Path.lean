import Verif.Model.Str

/-! # Specification: conversion of text -/

namespace Rpp.Spec.Path

/-- What is used of the conversion from UTF-8 to UTF-16: a zero byte becomes a zero unit between the conversions of what is before
and behind it, and other bytes never give a zero unit. -/
structure Conv (conv : List Byte → List (BitVec 16)) : Prop where
  empty : conv [] = []
  split : ∀ a b, conv (a ++ 0#8 :: b) = conv a ++ 0#16 :: conv b
  nonzero : ∀ a, 0#8 ∉ a → 0#16 ∉ conv a

end Rpp.Spec.Path
