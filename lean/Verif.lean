import Verif.Cpp
import Verif.MathUtils.Model
import Verif.MathUtils.Spec
import Verif.MathUtils.Lemmas
import Verif.MathUtils.PropsBits
import Verif.MathUtils.PropsOrder
import Verif.MathUtils.PropsArith
import Verif.Endianness.Model
import Verif.Endianness.Props
import Verif.Bitset.Model
import Verif.Bitset.Spec
import Verif.Bitset.Lemmas
import Verif.Bitset.LemmasOps
import Verif.Bitset.LemmasObs
import Verif.Bitset.LemmasAppend
import Verif.Bitset.History
import Verif.Bitset.LemmasSeq
import Verif.Bitset.PropsHistory
import Verif.Bitset.PropsObs
import Verif.Bitset.PropsLaws
import Verif.Bitset.PropsAppend
import Verif.Bitset.PropsExtra
import Verif.Exec
import Verif.Memory
import Verif.FixedVector.Model
import Verif.FixedVector.Spec
import Verif.FixedVector.Lemmas
import Verif.FixedVector.LemmasCopy
import Verif.FixedVector.LemmasThrow
import Verif.FixedVector.Props
import Verif.StackVector.Model
import Verif.StackVector.Props
import Verif.MemoryPool.Model
import Verif.MemoryPool.Spec
import Verif.MemoryPool.Lemmas
import Verif.MemoryPool.LemmasIter
import Verif.MemoryPool.Props
import Verif.MemoryPool.PropsReset
import Verif.Signal.Model
import Verif.Signal.Spec
import Verif.Signal.Lemmas
import Verif.Signal.LemmasDisc
import Verif.Signal.LemmasEmit
import Verif.Signal.LemmasCalm
import Verif.Signal.Props
import Verif.Signal.PropsMore
import Verif.Flags.Model
import Verif.Flags.Spec
import Verif.Flags.Lemmas
import Verif.Flags.Props
import Verif.SparsePtr.Model
import Verif.SparsePtr.Spec
import Verif.SparsePtr.Props
import Verif.Hash.Model
import Verif.Hash.Spec
import Verif.Hash.Lemmas
import Verif.Hash.Props
import Verif.Result.Model
import Verif.Result.Spec
import Verif.Result.Props
import Verif.Movable.Model
import Verif.Movable.Props
import Verif.CallOnExit.Model
import Verif.CallOnExit.Props
import Verif.PrivateImpl.Model
import Verif.PrivateImpl.Spec
import Verif.PrivateImpl.Lemmas
import Verif.PrivateImpl.Props
import Verif.FunctionRef.Model
import Verif.FunctionRef.Props
import Verif.TypeList.Model
import Verif.TypeList.Props
import Verif.SafeCast.Model
import Verif.SafeCast.Props
import Verif.EnumArray.Model
import Verif.EnumArray.Spec
import Verif.EnumArray.Props
import Verif.TypeName.Model
import Verif.TypeName.Props
import Verif.FloatMath.Format
import Verif.FloatMath.Rounding
import Verif.FloatMath.Model
import Verif.FloatMath.Lemmas
import Verif.FloatMath.PropsCompare
import Verif.FloatMath.PropsMove
import Verif.FloatMath.PropsLerp
import Verif.FloatMath.PropsMod
import Verif.FloatMath.PropsConst
import Verif.FloatMath.PropsAngle
import Verif.Assert.Model
import Verif.Assert.Spec
import Verif.Assert.Lemmas
import Verif.Assert.Props
import Verif.SafeCast.ModelFloat
import Verif.SafeCast.PropsFloat
import Verif.Strings.Model
import Verif.Strings.Props
import Verif.UniquePtr.Model
import Verif.UniquePtr.Props
import Verif.FixedBitset.Model
import Verif.FixedBitset.Spec
import Verif.FixedBitset.Lemmas
import Verif.FixedBitset.Props
import Verif.MathUtils.PropsExact
import Verif.Bitset.PropsExact
import Verif.FunctionTraits.Model
import Verif.FunctionTraits.Spec
import Verif.FunctionTraits.Props
import Verif.Signal.PropsThrow
import Verif.BitsetAlloc.Model
import Verif.BitsetAlloc.Spec
import Verif.BitsetAlloc.Lemmas
import Verif.BitsetAlloc.Props
import Verif.MemoryPoolAlloc.Model
import Verif.MemoryPoolAlloc.Spec
import Verif.MemoryPoolAlloc.Lemmas
import Verif.MemoryPoolAlloc.Props
import Verif.FixedVector.PropsMove
import Verif.FixedVectorAlloc.Model
import Verif.FixedVectorAlloc.Spec
import Verif.FixedVectorAlloc.Lemmas
import Verif.FixedVectorAlloc.LemmasCopy
import Verif.FixedVectorAlloc.Reach
import Verif.FixedVectorAlloc.Props
import Verif.StackAlloc.Model
import Verif.StackAlloc.Props
import Verif.CallOnExit.ModelNested
import Verif.CallOnExit.PropsNested
import Verif.Result.ModelHelper
import Verif.Result.PropsHelper
import Verif.HybridBitset.Model
import Verif.HybridBitset.Spec
import Verif.HybridBitset.Props
import Verif.HybridBitset.PropsContainer
import Verif.FixedVector.ModelIter
import Verif.FixedVector.PropsIter
import Verif.StackVector.ModelIter
import Verif.StackVector.PropsIter
import Verif.Signal.ModelCapture
import Verif.Signal.PropsCapture
import Verif.Bytes.Model
import Verif.Bytes.Spec
import Verif.Bytes.Lemmas
import Verif.Bytes.Props
import Verif.Retrieve.Model
import Verif.Retrieve.Spec
import Verif.Retrieve.Props
import Verif.FixedVector.ModelThrow
import Verif.FixedVector.LemmasMoveThrow
import Verif.FixedVector.LemmasCtorThrow
import Verif.FixedVector.PropsThrow
import Verif.Signal.SpecNested
import Verif.Signal.LemmasNested
import Verif.Signal.PropsNested
import Verif.Signal.ModelOwn
import Verif.Signal.LemmasOwn
import Verif.Signal.PropsOwn
import Verif.Signal.ModelAlloc
import Verif.Signal.PropsAlloc
import Verif.MemoryPool.ModelBody
import Verif.MemoryPool.PropsBody
import Verif.MemoryPool.ModelOwn
import Verif.MemoryPool.LemmasOwn
import Verif.MemoryPool.LemmasOwnFail
import Verif.MemoryPool.PropsOwn
import Verif.StackVector.ModelThrow
import Verif.StackVector.PropsThrow
import Verif.Signal.ModelObj
import Verif.Signal.LemmasObj
import Verif.Signal.PropsObj
import Verif.Signal.ModelVec
import Verif.Signal.PropsVec
import Verif.MemoryPool.ModelNest
import Verif.MemoryPool.PropsNest
import Verif.Signal.ModelLife
import Verif.Signal.SpecLife
import Verif.Signal.LemmasLife
import Verif.Signal.PropsLife
import Verif.MemoryPool.ModelSpawn
import Verif.MemoryPool.LemmasSpawn
import Verif.MemoryPool.PropsSpawn
import Verif.Signal.ModelVars
import Verif.Signal.SpecVars
import Verif.Signal.PropsVars
import Verif.Bitset.ModelOps
import Verif.Bitset.PropsOps
import Verif.MemoryPool.SpecMany
import Verif.MemoryPool.LemmasMany
import Verif.MemoryPool.PropsMany
import Verif.Hash.ModelCall
import Verif.Hash.PropsCall
import Verif.Signal.ModelThreads
import Verif.Signal.PropsThreads
import Verif.Bytes.ModelFloat
import Verif.Bytes.SpecFloat
import Verif.Bytes.PropsFloat
import Verif.Bitset.ModelLoop
import Verif.Bitset.PropsLoop
import Verif.Signal.ModelOwnEmit
import Verif.Signal.LemmasOwnEmit
import Verif.Signal.LemmasOwnClear
import Verif.Signal.LemmasOwnNest
import Verif.Signal.PropsOwnEmit
import Verif.Flags.ModelHash
import Verif.Flags.PropsHash
import Verif.MathUtils.ModelSigned
import Verif.MathUtils.LemmasSigned
import Verif.MathUtils.PropsSigned
import Verif.PrivateImpl.ModelCtor
import Verif.PrivateImpl.PropsCtor
import Verif.Bitset.ModelSigned
import Verif.Bitset.PropsSigned
import Verif.FunctionRef.ModelNested
import Verif.FunctionRef.PropsNested
import Verif.Storage.Model
import Verif.Storage.Spec
import Verif.Storage.Props
import Verif.Result.ModelCtor
import Verif.Result.PropsCtor
import Verif.TypeTraits.Model
import Verif.TypeTraits.Props
import Verif.TypeTraits.ModelComplete
import Verif.TypeTraits.PropsComplete
import Verif.BitsetAlloc.ModelIndex
import Verif.BitsetAlloc.PropsIndex
import Verif.Bitset.PropsSignedWide
import Verif.BitsetAlloc.ModelCapacity
import Verif.BitsetAlloc.PropsCapacity
import Verif.Bitset.PropsBytes
import Verif.Signal.PropsClear
import Verif.Args.Model
import Verif.Args.Spec
import Verif.Args.Props
import Verif.FunctionRef.ModelCtor
import Verif.FunctionRef.PropsCtor
import Verif.FunctionRef.ModelConvert
import Verif.FunctionRef.PropsConvert
import Verif.FixedVector.ModelSelect
import Verif.FixedVector.PropsSelect
import Verif.Bitset.ModelSelect
import Verif.Bitset.PropsSelect
import Verif.SparsePtr.ModelMixed
import Verif.SparsePtr.PropsMixed
import Verif.Flags.ModelMixed
import Verif.Flags.SpecMixed
import Verif.Flags.PropsMixed
import Verif.EnumArray.ModelDecl
import Verif.EnumArray.PropsDecl
import Verif.Movable.ModelMixed
import Verif.Movable.PropsMixed
import Verif.FixedVector.ModelReent
import Verif.FixedVector.PropsReent
import Verif.Threads.Model
import Verif.Threads.Props
import Verif.FloatMath.PropsLerpError
import Verif.MemoryPool.ModelThreads
import Verif.MemoryPool.PropsThreads
import Verif.Hash.PropsTwoBits
import Verif.Hash.PropsCombine
import Verif.Hash.PropsCheck
import Verif.Hash.PropsWindow
import Verif.Hash.ThreeBits
import Verif.Hash.PropsThreeBits
import Verif.EnumArray.ModelInit
import Verif.EnumArray.PropsInit
import Verif.EnumArray.SpecInit
import Verif.Hash.PropsZeros
import Verif.Args.ModelMany
import Verif.Args.SpecMany
import Verif.Args.PropsMany
import Verif.Retrieve.ModelMulti
import Verif.Retrieve.SpecMulti
import Verif.Retrieve.PropsMulti
