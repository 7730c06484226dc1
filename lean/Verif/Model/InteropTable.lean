import Verif.Model.InteropArgs
/-
The exported functions of the C facade which take a vector, call one method of the library and give back a vector, and the methods which
they call. The functions in facade64.rs are the same with another number type (the file is generated from facade32.rs).
-/
namespace Dsp
variable {T : Type}

/-- The methods of the library which the facade calls through `convert_vec` and `trans_vec`, with the arguments which it passes. The
    methods themselves are modelled elsewhere, see `Lib`. Methods which are generic in the type of an argument occur once for each
    type. -/
inductive LibMethod (T : Type)
  | add
  | addSmaller
  | sub
  | subSmaller
  | div
  | divSmaller
  | mul
  | mulSmaller
  | zeroPadB (points : Nat) (option : PaddingOption)
  | zeroInterleaveB (factor : Nat)
  | diff
  | diffWithStart
  | cumSum
  | abs
  | sqrt
  | square
  | ln
  | exp
  | toComplexB
  | sin
  | cos
  | tan
  | asin
  | acos
  | atan
  | sinh
  | cosh
  | tanh
  | asinh
  | acosh
  | atanh
  | lnApprox
  | expApprox
  | sinApprox
  | cosApprox
  | swapHalves
  | magnitudeB
  | magnitudeSquaredB
  | conj
  | toRealB
  | toImagB
  | phaseB
  | plainFft
  | plainSfft
  | plainIfft
  | fft
  | sfft
  | ifft
  | plainSifft
  | sifft
  | mirror
  | fftShift
  | ifftShift
  | reverse
  | prepareArgument
  | prepareArgumentPadded
  | correlate
  | convolveSignal
  | setRealImag
  | setMagPhase
  | merge
  | offset (value : T)
  | scale (value : T)
  | root (value : T)
  | powf (value : T)
  | log (value : T)
  | expf (value : T)
  | logApprox (value : T)
  | expfApprox (value : T)
  | powfApprox (value : T)
  | wrap (value : T)
  | unwrap (value : T)
  | offsetComplex (value : Cx T)
  | scaleComplex (value : Cx T)
  | mapInplace (map : T → Nat → T)
  | mapInplaceComplex (map : Cx T → Nat → Cx T)
  | multiplyComplexExponential (a : T) (b : T)
  | applyWindow (window : WindowArg T)
  | unapplyWindow (window : WindowArg T)
  | windowedFft (window : WindowArg T)
  | windowedSfft (window : WindowArg T)
  | windowedIfft (window : WindowArg T)
  | windowedSifft (window : WindowArg T)
  | decimatei (factor : Nat) (delay : Nat)
  | convolve (function : ResponseArg T) (ratio : T) (len : Nat)
  | convolveComplex (function : ComplexResponseArg T) (ratio : T) (len : Nat)
  | multiplyFrequencyResponse (function : ResponseArg T) (ratio : T)
  | multiplyFrequencyResponseComplex (function : ComplexResponseArg T) (ratio : T)
  | interpolatef (function : ResponseArg T) (factor : T) (delay : T) (len : Nat)
  | interpolate (function : ResponseArg T) (destPoints : Nat) (delay : T)
  | interpft (destPoints : Nat)
  | interpolatei (function : ResponseArg T) (factor : Nat)
  | interpolateLin (factor : T) (delay : T)
  | interpolateHermite (factor : T) (delay : T)

/-- The name of a method in the library, in words. -/
def LibMethod.words : LibMethod T → List String
  | .add => ["add"]
  | .addSmaller => ["add", "smaller"]
  | .sub => ["sub"]
  | .subSmaller => ["sub", "smaller"]
  | .div => ["div"]
  | .divSmaller => ["div", "smaller"]
  | .mul => ["mul"]
  | .mulSmaller => ["mul", "smaller"]
  | .zeroPadB _ _ => ["zero", "pad", "b"]
  | .zeroInterleaveB _ => ["zero", "interleave", "b"]
  | .diff => ["diff"]
  | .diffWithStart => ["diff", "with", "start"]
  | .cumSum => ["cum", "sum"]
  | .abs => ["abs"]
  | .sqrt => ["sqrt"]
  | .square => ["square"]
  | .ln => ["ln"]
  | .exp => ["exp"]
  | .toComplexB => ["to", "complex", "b"]
  | .sin => ["sin"]
  | .cos => ["cos"]
  | .tan => ["tan"]
  | .asin => ["asin"]
  | .acos => ["acos"]
  | .atan => ["atan"]
  | .sinh => ["sinh"]
  | .cosh => ["cosh"]
  | .tanh => ["tanh"]
  | .asinh => ["asinh"]
  | .acosh => ["acosh"]
  | .atanh => ["atanh"]
  | .lnApprox => ["ln", "approx"]
  | .expApprox => ["exp", "approx"]
  | .sinApprox => ["sin", "approx"]
  | .cosApprox => ["cos", "approx"]
  | .swapHalves => ["swap", "halves"]
  | .magnitudeB => ["magnitude", "b"]
  | .magnitudeSquaredB => ["magnitude", "squared", "b"]
  | .conj => ["conj"]
  | .toRealB => ["to", "real", "b"]
  | .toImagB => ["to", "imag", "b"]
  | .phaseB => ["phase", "b"]
  | .plainFft => ["plain", "fft"]
  | .plainSfft => ["plain", "sfft"]
  | .plainIfft => ["plain", "ifft"]
  | .fft => ["fft"]
  | .sfft => ["sfft"]
  | .ifft => ["ifft"]
  | .plainSifft => ["plain", "sifft"]
  | .sifft => ["sifft"]
  | .mirror => ["mirror"]
  | .fftShift => ["fft", "shift"]
  | .ifftShift => ["ifft", "shift"]
  | .reverse => ["reverse"]
  | .prepareArgument => ["prepare", "argument"]
  | .prepareArgumentPadded => ["prepare", "argument", "padded"]
  | .correlate => ["correlate"]
  | .convolveSignal => ["convolve", "signal"]
  | .setRealImag => ["set", "real", "imag"]
  | .setMagPhase => ["set", "mag", "phase"]
  | .merge => ["merge"]
  | .offset _ => ["offset"]
  | .scale _ => ["scale"]
  | .root _ => ["root"]
  | .powf _ => ["powf"]
  | .log _ => ["log"]
  | .expf _ => ["expf"]
  | .logApprox _ => ["log", "approx"]
  | .expfApprox _ => ["expf", "approx"]
  | .powfApprox _ => ["powf", "approx"]
  | .wrap _ => ["wrap"]
  | .unwrap _ => ["unwrap"]
  | .offsetComplex _ => ["offset"]
  | .scaleComplex _ => ["scale"]
  | .mapInplace _ => ["map", "inplace"]
  | .mapInplaceComplex _ => ["map", "inplace"]
  | .multiplyComplexExponential _ _ => ["multiply", "complex", "exponential"]
  | .applyWindow _ => ["apply", "window"]
  | .unapplyWindow _ => ["unapply", "window"]
  | .windowedFft _ => ["windowed", "fft"]
  | .windowedSfft _ => ["windowed", "sfft"]
  | .windowedIfft _ => ["windowed", "ifft"]
  | .windowedSifft _ => ["windowed", "sifft"]
  | .decimatei _ _ => ["decimatei"]
  | .convolve _ _ _ => ["convolve"]
  | .convolveComplex _ _ _ => ["convolve"]
  | .multiplyFrequencyResponse _ _ => ["multiply", "frequency", "response"]
  | .multiplyFrequencyResponseComplex _ _ => ["multiply", "frequency", "response"]
  | .interpolatef _ _ _ _ => ["interpolatef"]
  | .interpolate _ _ _ => ["interpolate"]
  | .interpft _ => ["interpft"]
  | .interpolatei _ _ => ["interpolatei"]
  | .interpolateLin _ _ => ["interpolate", "lin"]
  | .interpolateHermite _ _ => ["interpolate", "hermite"]

/-- The arguments (without `self`, buffers and other vectors) of a method in the library. -/
def LibMethod.args : LibMethod T → List (LibVal T)
  | .add => []
  | .addSmaller => []
  | .sub => []
  | .subSmaller => []
  | .div => []
  | .divSmaller => []
  | .mul => []
  | .mulSmaller => []
  | .zeroPadB points option => [.nat points, .padding option]
  | .zeroInterleaveB factor => [.nat factor]
  | .diff => []
  | .diffWithStart => []
  | .cumSum => []
  | .abs => []
  | .sqrt => []
  | .square => []
  | .ln => []
  | .exp => []
  | .toComplexB => []
  | .sin => []
  | .cos => []
  | .tan => []
  | .asin => []
  | .acos => []
  | .atan => []
  | .sinh => []
  | .cosh => []
  | .tanh => []
  | .asinh => []
  | .acosh => []
  | .atanh => []
  | .lnApprox => []
  | .expApprox => []
  | .sinApprox => []
  | .cosApprox => []
  | .swapHalves => []
  | .magnitudeB => []
  | .magnitudeSquaredB => []
  | .conj => []
  | .toRealB => []
  | .toImagB => []
  | .phaseB => []
  | .plainFft => []
  | .plainSfft => []
  | .plainIfft => []
  | .fft => []
  | .sfft => []
  | .ifft => []
  | .plainSifft => []
  | .sifft => []
  | .mirror => []
  | .fftShift => []
  | .ifftShift => []
  | .reverse => []
  | .prepareArgument => []
  | .prepareArgumentPadded => []
  | .correlate => []
  | .convolveSignal => []
  | .setRealImag => []
  | .setMagPhase => []
  | .merge => []
  | .offset value => [.real value]
  | .scale value => [.real value]
  | .root value => [.real value]
  | .powf value => [.real value]
  | .log value => [.real value]
  | .expf value => [.real value]
  | .logApprox value => [.real value]
  | .expfApprox value => [.real value]
  | .powfApprox value => [.real value]
  | .wrap value => [.real value]
  | .unwrap value => [.real value]
  | .offsetComplex value => [.complex value]
  | .scaleComplex value => [.complex value]
  | .mapInplace map => [.mapReal map]
  | .mapInplaceComplex map => [.mapComplex map]
  | .multiplyComplexExponential a b => [.real a, .real b]
  | .applyWindow window => [.window window]
  | .unapplyWindow window => [.window window]
  | .windowedFft window => [.window window]
  | .windowedSfft window => [.window window]
  | .windowedIfft window => [.window window]
  | .windowedSifft window => [.window window]
  | .decimatei factor delay => [.nat factor, .nat delay]
  | .convolve function ratio len => [.response function, .real ratio, .nat len]
  | .convolveComplex function ratio len => [.responseComplex function, .real ratio, .nat len]
  | .multiplyFrequencyResponse function ratio => [.response function, .real ratio]
  | .multiplyFrequencyResponseComplex function ratio => [.responseComplex function, .real ratio]
  | .interpolatef function factor delay len => [.response function, .real factor, .real delay, .nat len]
  | .interpolate function destPoints delay => [.response function, .nat destPoints, .real delay]
  | .interpft destPoints => [.nat destPoints]
  | .interpolatei function factor => [.response function, .nat factor]
  | .interpolateLin factor delay => [.real factor, .real delay]
  | .interpolateHermite factor delay => [.real factor, .real delay]

/-- The exported functions which give back a vector, with the arguments which are not vectors, facade32.rs. -/
inductive VecFun (T : Type)
  /-- facade32.rs:172-175. -/
  | add
  /-- facade32.rs:177-180. -/
  | sub
  /-- facade32.rs:182-185. -/
  | div
  /-- facade32.rs:187-190. -/
  | mul
  /-- facade32.rs:329-337. -/
  | zeroPad (points : Nat) (option : Int)
  /-- facade32.rs:339-345. -/
  | zeroInterleave (factor : Int)
  /-- facade32.rs:347-350. -/
  | diff
  /-- facade32.rs:352-355. -/
  | diffWithStart
  /-- facade32.rs:357-360. -/
  | cumSum
  /-- facade32.rs:362-365. -/
  | realOffset (value : T)
  /-- facade32.rs:367-370. -/
  | realScale (value : T)
  /-- facade32.rs:372-375. -/
  | abs
  /-- facade32.rs:377-380. -/
  | sqrt
  /-- facade32.rs:382-385. -/
  | square
  /-- facade32.rs:387-390. -/
  | root (value : T)
  /-- facade32.rs:392-395. -/
  | powf (value : T)
  /-- facade32.rs:397-400. -/
  | ln
  /-- facade32.rs:402-405. -/
  | exp
  /-- facade32.rs:407-410. -/
  | log (value : T)
  /-- facade32.rs:412-415. -/
  | expf (value : T)
  /-- facade32.rs:417-420. -/
  | toComplex
  /-- facade32.rs:422-425. -/
  | sin
  /-- facade32.rs:427-430. -/
  | cos
  /-- facade32.rs:432-435. -/
  | tan
  /-- facade32.rs:437-440. -/
  | asin
  /-- facade32.rs:442-445. -/
  | acos
  /-- facade32.rs:447-450. -/
  | atan
  /-- facade32.rs:452-455. -/
  | sinh
  /-- facade32.rs:456-459. -/
  | cosh
  /-- facade32.rs:461-464. -/
  | tanh
  /-- facade32.rs:466-469. -/
  | asinh
  /-- facade32.rs:471-474. -/
  | acosh
  /-- facade32.rs:476-479. -/
  | atanh
  /-- facade32.rs:481-484. -/
  | lnApprox
  /-- facade32.rs:486-489. -/
  | expApprox
  /-- facade32.rs:491-494. -/
  | sinApprox
  /-- facade32.rs:496-499. -/
  | cosApprox
  /-- facade32.rs:501-504. -/
  | logApprox (value : T)
  /-- facade32.rs:506-509. -/
  | expfApprox (value : T)
  /-- facade32.rs:511-514. -/
  | powfApprox (value : T)
  /-- facade32.rs:516-519. -/
  | wrap (value : T)
  /-- facade32.rs:521-524. -/
  | unwrap (value : T)
  /-- facade32.rs:526-529. -/
  | swapHalves
  /-- facade32.rs:531-538. -/
  | complexOffset (real : T) (imag : T)
  /-- facade32.rs:540-547. -/
  | complexScale (real : T) (imag : T)
  /-- facade32.rs:549-556. -/
  | complexDivide (real : T) (imag : T)
  /-- facade32.rs:558-561. -/
  | magnitude
  /-- facade32.rs:573-576. -/
  | magnitudeSquared
  /-- facade32.rs:578-581. -/
  | conj
  /-- facade32.rs:583-586. -/
  | toReal
  /-- facade32.rs:588-591. -/
  | toImag
  /-- facade32.rs:593-600. -/
  | mapInplaceReal (map : T → Nat → T)
  /-- facade32.rs:602-609. -/
  | mapInplaceComplex (map : Cx T → Nat → Cx T)
  /-- facade32.rs:661-664. -/
  | phase
  /-- facade32.rs:671-674. -/
  | plainFft
  /-- facade32.rs:676-679. -/
  | plainSfft
  /-- facade32.rs:681-684. -/
  | plainIfft
  /-- facade32.rs:694-701. -/
  | multiplyComplexExponential (a : T) (b : T)
  /-- facade32.rs:703-709. -/
  | addVector
  /-- facade32.rs:711-717. -/
  | subVector
  /-- facade32.rs:719-725. -/
  | divVector
  /-- facade32.rs:727-733. -/
  | mulVector
  /-- facade32.rs:735-741. -/
  | addSmallerVector
  /-- facade32.rs:743-749. -/
  | subSmallerVector
  /-- facade32.rs:751-757. -/
  | divSmallerVector
  /-- facade32.rs:759-765. -/
  | mulSmallerVector
  /-- facade32.rs:785-792. -/
  | setRealImag
  /-- facade32.rs:794-801. -/
  | setMagPhase
  /-- facade32.rs:813-824. -/
  | merge
  /-- facade32.rs:933-936. -/
  | fft
  /-- facade32.rs:938-941. -/
  | sfft
  /-- facade32.rs:943-946. -/
  | ifft
  /-- facade32.rs:948-951. -/
  | plainSifft
  /-- facade32.rs:953-956. -/
  | sifft
  /-- facade32.rs:958-961. -/
  | mirror
  /-- facade32.rs:963-965. -/
  | fftShift
  /-- facade32.rs:967-969. -/
  | ifftShift
  /-- facade32.rs:979-983. -/
  | applyWindow (window : Int)
  /-- facade32.rs:986-993. -/
  | unapplyWindow (window : Int)
  /-- facade32.rs:996-1000. -/
  | windowedFft (window : Int)
  /-- facade32.rs:1003-1007. -/
  | windowedSfft (window : Int)
  /-- facade32.rs:1010-1014. -/
  | windowedIfft (window : Int)
  /-- facade32.rs:1017-1024. -/
  | windowedSifft (window : Int)
  /-- facade32.rs:1029-1044. -/
  | applyCustomWindow (window : Nat → Nat → Nat → T) (windowData : Nat) (isSymmetric : Bool)
  /-- facade32.rs:1048-1063. -/
  | unapplyCustomWindow (window : Nat → Nat → Nat → T) (windowData : Nat) (isSymmetric : Bool)
  /-- facade32.rs:1067-1082. -/
  | windowedCustomFft (window : Nat → Nat → Nat → T) (windowData : Nat) (isSymmetric : Bool)
  /-- facade32.rs:1086-1101. -/
  | windowedCustomSfft (window : Nat → Nat → Nat → T) (windowData : Nat) (isSymmetric : Bool)
  /-- facade32.rs:1105-1120. -/
  | windowedCustomIfft (window : Nat → Nat → Nat → T) (windowData : Nat) (isSymmetric : Bool)
  /-- facade32.rs:1124-1139. -/
  | windowedCustomSifft (window : Nat → Nat → Nat → T) (windowData : Nat) (isSymmetric : Bool)
  /-- facade32.rs:1141-1144. -/
  | reverse
  /-- facade32.rs:1146-1153. -/
  | decimatei (factor : Nat) (delay : Nat)
  /-- facade32.rs:1155-1158. -/
  | prepareArgument
  /-- facade32.rs:1160-1163. -/
  | prepareArgumentPadded
  /-- facade32.rs:1165-1168. -/
  | correlate
  /-- facade32.rs:1170-1176. -/
  | convolveSignal
  /-- facade32.rs:1182-1199. -/
  | convolveReal (impulseResponse : Nat → T → T) (data : Nat) (isSymmetric : Bool) (ratio : T) (len : Nat)
  /-- facade32.rs:1205-1222. -/
  | convolveComplex (impulseResponse : Nat → T → Cx T) (data : Nat) (isSymmetric : Bool) (ratio : T) (len : Nat)
  /-- facade32.rs:1230-1240. -/
  | convolve (impulseResponse : Int) (rolloff : T) (ratio : T) (len : Nat)
  /-- facade32.rs:1246-1262. -/
  | multiplyFrequencyResponseReal (impulseResponse : Nat → T → T) (data : Nat) (isSymmetric : Bool) (ratio : T)
  /-- facade32.rs:1268-1284. -/
  | multiplyFrequencyResponseComplex (impulseResponse : Nat → T → Cx T) (data : Nat) (isSymmetric : Bool) (ratio : T)
  /-- facade32.rs:1292-1301. -/
  | multiplyFrequencyResponse (impulseResponse : Int) (rolloff : T) (ratio : T)
  /-- facade32.rs:1307-1325. -/
  | interpolatefCustom (impulseResponse : Nat → T → T) (data : Nat) (isSymmetric : Bool) (factor : T) (delay : T) (len : Nat)
  /-- facade32.rs:1333-1346. -/
  | interpolatef (impulseResponse : Int) (rolloff : T) (factor : T) (delay : T) (len : Nat)
  /-- facade32.rs:1352-1369. -/
  | interpolateCustom (impulseResponse : Nat → T → T) (data : Nat) (isSymmetric : Bool) (destPoints : Nat) (delay : T)
  /-- facade32.rs:1377-1387. -/
  | interpolate (impulseResponse : Int) (rolloff : T) (destPoints : Nat) (delay : T)
  /-- facade32.rs:1389-1395. -/
  | interpft (destPoints : Nat)
  /-- facade32.rs:1401-1417. -/
  | interpolateiCustom (impulseResponse : Nat → T → T) (data : Nat) (isSymmetric : Bool) (factor : Int)
  /-- facade32.rs:1425-1434. -/
  | interpolatei (impulseResponse : Int) (rolloff : T) (factor : Int)
  /-- facade32.rs:1436-1443. -/
  | interpolateLin (factor : T) (delay : T)
  /-- facade32.rs:1445-1452. -/
  | interpolateHermite (factor : T) (delay : T)

/-- The name of an exported function (without the 32 or 64 at the end), in words; lines as for `VecFun`. -/
def VecFun.words : VecFun T → List String
  | .add => ["add"]
  | .sub => ["sub"]
  | .div => ["div"]
  | .mul => ["mul"]
  | .zeroPad _ _ => ["zero", "pad"]
  | .zeroInterleave _ => ["zero", "interleave"]
  | .diff => ["diff"]
  | .diffWithStart => ["diff", "with", "start"]
  | .cumSum => ["cum", "sum"]
  | .realOffset _ => ["real", "offset"]
  | .realScale _ => ["real", "scale"]
  | .abs => ["abs"]
  | .sqrt => ["sqrt"]
  | .square => ["square"]
  | .root _ => ["root"]
  | .powf _ => ["powf"]
  | .ln => ["ln"]
  | .exp => ["exp"]
  | .log _ => ["log"]
  | .expf _ => ["expf"]
  | .toComplex => ["to", "complex"]
  | .sin => ["sin"]
  | .cos => ["cos"]
  | .tan => ["tan"]
  | .asin => ["asin"]
  | .acos => ["acos"]
  | .atan => ["atan"]
  | .sinh => ["sinh"]
  | .cosh => ["cosh"]
  | .tanh => ["tanh"]
  | .asinh => ["asinh"]
  | .acosh => ["acosh"]
  | .atanh => ["atanh"]
  | .lnApprox => ["ln", "approx"]
  | .expApprox => ["exp", "approx"]
  | .sinApprox => ["sin", "approx"]
  | .cosApprox => ["cos", "approx"]
  | .logApprox _ => ["log", "approx"]
  | .expfApprox _ => ["expf", "approx"]
  | .powfApprox _ => ["powf", "approx"]
  | .wrap _ => ["wrap"]
  | .unwrap _ => ["unwrap"]
  | .swapHalves => ["swap", "halves"]
  | .complexOffset _ _ => ["complex", "offset"]
  | .complexScale _ _ => ["complex", "scale"]
  | .complexDivide _ _ => ["complex", "divide"]
  | .magnitude => ["magnitude"]
  | .magnitudeSquared => ["magnitude", "squared"]
  | .conj => ["conj"]
  | .toReal => ["to", "real"]
  | .toImag => ["to", "imag"]
  | .mapInplaceReal _ => ["map", "inplace", "real"]
  | .mapInplaceComplex _ => ["map", "inplace", "complex"]
  | .phase => ["phase"]
  | .plainFft => ["plain", "fft"]
  | .plainSfft => ["plain", "sfft"]
  | .plainIfft => ["plain", "ifft"]
  | .multiplyComplexExponential _ _ => ["multiply", "complex", "exponential"]
  | .addVector => ["add", "vector"]
  | .subVector => ["sub", "vector"]
  | .divVector => ["div", "vector"]
  | .mulVector => ["mul", "vector"]
  | .addSmallerVector => ["add", "smaller", "vector"]
  | .subSmallerVector => ["sub", "smaller", "vector"]
  | .divSmallerVector => ["div", "smaller", "vector"]
  | .mulSmallerVector => ["mul", "smaller", "vector"]
  | .setRealImag => ["set", "real", "imag"]
  | .setMagPhase => ["set", "mag", "phase"]
  | .merge => ["merge"]
  | .fft => ["fft"]
  | .sfft => ["sfft"]
  | .ifft => ["ifft"]
  | .plainSifft => ["plain", "sifft"]
  | .sifft => ["sifft"]
  | .mirror => ["mirror"]
  | .fftShift => ["fft", "shift"]
  | .ifftShift => ["ifft", "shift"]
  | .applyWindow _ => ["apply", "window"]
  | .unapplyWindow _ => ["unapply", "window"]
  | .windowedFft _ => ["windowed", "fft"]
  | .windowedSfft _ => ["windowed", "sfft"]
  | .windowedIfft _ => ["windowed", "ifft"]
  | .windowedSifft _ => ["windowed", "sifft"]
  | .applyCustomWindow _ _ _ => ["apply", "custom", "window"]
  | .unapplyCustomWindow _ _ _ => ["unapply", "custom", "window"]
  | .windowedCustomFft _ _ _ => ["windowed", "custom", "fft"]
  | .windowedCustomSfft _ _ _ => ["windowed", "custom", "sfft"]
  | .windowedCustomIfft _ _ _ => ["windowed", "custom", "ifft"]
  | .windowedCustomSifft _ _ _ => ["windowed", "custom", "sifft"]
  | .reverse => ["reverse"]
  | .decimatei _ _ => ["decimatei"]
  | .prepareArgument => ["prepare", "argument"]
  | .prepareArgumentPadded => ["prepare", "argument", "padded"]
  | .correlate => ["correlate"]
  | .convolveSignal => ["convolve", "signal"]
  | .convolveReal _ _ _ _ _ => ["convolve", "real"]
  | .convolveComplex _ _ _ _ _ => ["convolve", "complex"]
  | .convolve _ _ _ _ => ["convolve"]
  | .multiplyFrequencyResponseReal _ _ _ _ => ["multiply", "frequency", "response", "real"]
  | .multiplyFrequencyResponseComplex _ _ _ _ => ["multiply", "frequency", "response", "complex"]
  | .multiplyFrequencyResponse _ _ _ => ["multiply", "frequency", "response"]
  | .interpolatefCustom _ _ _ _ _ _ => ["interpolatef", "custom"]
  | .interpolatef _ _ _ _ _ => ["interpolatef"]
  | .interpolateCustom _ _ _ _ _ => ["interpolate", "custom"]
  | .interpolate _ _ _ _ => ["interpolate"]
  | .interpft _ => ["interpft"]
  | .interpolateiCustom _ _ _ _ => ["interpolatei", "custom"]
  | .interpolatei _ _ _ => ["interpolatei"]
  | .interpolateLin _ _ => ["interpolate", "lin"]
  | .interpolateHermite _ _ => ["interpolate", "hermite"]

/-- The arguments of an exported function which are not vectors, in the order of its parameters; lines as for `VecFun`. -/
def VecFun.args : VecFun T → List (CVal T)
  | .add => []
  | .sub => []
  | .div => []
  | .mul => []
  | .zeroPad points option => [.usize points, .i32 option]
  | .zeroInterleave factor => [.i32 factor]
  | .diff => []
  | .diffWithStart => []
  | .cumSum => []
  | .realOffset value => [.real value]
  | .realScale value => [.real value]
  | .abs => []
  | .sqrt => []
  | .square => []
  | .root value => [.real value]
  | .powf value => [.real value]
  | .ln => []
  | .exp => []
  | .log value => [.real value]
  | .expf value => [.real value]
  | .toComplex => []
  | .sin => []
  | .cos => []
  | .tan => []
  | .asin => []
  | .acos => []
  | .atan => []
  | .sinh => []
  | .cosh => []
  | .tanh => []
  | .asinh => []
  | .acosh => []
  | .atanh => []
  | .lnApprox => []
  | .expApprox => []
  | .sinApprox => []
  | .cosApprox => []
  | .logApprox value => [.real value]
  | .expfApprox value => [.real value]
  | .powfApprox value => [.real value]
  | .wrap value => [.real value]
  | .unwrap value => [.real value]
  | .swapHalves => []
  | .complexOffset real imag => [.real real, .real imag]
  | .complexScale real imag => [.real real, .real imag]
  | .complexDivide real imag => [.real real, .real imag]
  | .magnitude => []
  | .magnitudeSquared => []
  | .conj => []
  | .toReal => []
  | .toImag => []
  | .mapInplaceReal map => [.mapReal map]
  | .mapInplaceComplex map => [.mapComplex map]
  | .phase => []
  | .plainFft => []
  | .plainSfft => []
  | .plainIfft => []
  | .multiplyComplexExponential a b => [.real a, .real b]
  | .addVector => []
  | .subVector => []
  | .divVector => []
  | .mulVector => []
  | .addSmallerVector => []
  | .subSmallerVector => []
  | .divSmallerVector => []
  | .mulSmallerVector => []
  | .setRealImag => []
  | .setMagPhase => []
  | .merge => []
  | .fft => []
  | .sfft => []
  | .ifft => []
  | .plainSifft => []
  | .sifft => []
  | .mirror => []
  | .fftShift => []
  | .ifftShift => []
  | .applyWindow window => [.i32 window]
  | .unapplyWindow window => [.i32 window]
  | .windowedFft window => [.i32 window]
  | .windowedSfft window => [.i32 window]
  | .windowedIfft window => [.i32 window]
  | .windowedSifft window => [.i32 window]
  | .applyCustomWindow window windowData isSymmetric => [.window window, .ptr windowData, .bool isSymmetric]
  | .unapplyCustomWindow window windowData isSymmetric => [.window window, .ptr windowData, .bool isSymmetric]
  | .windowedCustomFft window windowData isSymmetric => [.window window, .ptr windowData, .bool isSymmetric]
  | .windowedCustomSfft window windowData isSymmetric => [.window window, .ptr windowData, .bool isSymmetric]
  | .windowedCustomIfft window windowData isSymmetric => [.window window, .ptr windowData, .bool isSymmetric]
  | .windowedCustomSifft window windowData isSymmetric => [.window window, .ptr windowData, .bool isSymmetric]
  | .reverse => []
  | .decimatei factor delay => [.u32 factor, .u32 delay]
  | .prepareArgument => []
  | .prepareArgumentPadded => []
  | .correlate => []
  | .convolveSignal => []
  | .convolveReal impulseResponse data isSymmetric ratio len => [.response impulseResponse, .ptr data, .bool isSymmetric, .real ratio, .usize len]
  | .convolveComplex impulseResponse data isSymmetric ratio len => [.responseComplex impulseResponse, .ptr data, .bool isSymmetric, .real ratio, .usize len]
  | .convolve impulseResponse rolloff ratio len => [.i32 impulseResponse, .real rolloff, .real ratio, .usize len]
  | .multiplyFrequencyResponseReal impulseResponse data isSymmetric ratio => [.response impulseResponse, .ptr data, .bool isSymmetric, .real ratio]
  | .multiplyFrequencyResponseComplex impulseResponse data isSymmetric ratio => [.responseComplex impulseResponse, .ptr data, .bool isSymmetric, .real ratio]
  | .multiplyFrequencyResponse impulseResponse rolloff ratio => [.i32 impulseResponse, .real rolloff, .real ratio]
  | .interpolatefCustom impulseResponse data isSymmetric factor delay len => [.response impulseResponse, .ptr data, .bool isSymmetric, .real factor, .real delay, .usize len]
  | .interpolatef impulseResponse rolloff factor delay len => [.i32 impulseResponse, .real rolloff, .real factor, .real delay, .usize len]
  | .interpolateCustom impulseResponse data isSymmetric destPoints delay => [.response impulseResponse, .ptr data, .bool isSymmetric, .usize destPoints, .real delay]
  | .interpolate impulseResponse rolloff destPoints delay => [.i32 impulseResponse, .real rolloff, .usize destPoints, .real delay]
  | .interpft destPoints => [.usize destPoints]
  | .interpolateiCustom impulseResponse data isSymmetric factor => [.response impulseResponse, .ptr data, .bool isSymmetric, .i32 factor]
  | .interpolatei impulseResponse rolloff factor => [.i32 impulseResponse, .real rolloff, .i32 factor]
  | .interpolateLin factor delay => [.real factor, .real delay]
  | .interpolateHermite factor delay => [.real factor, .real delay]

/-- The method which an exported function calls, with the arguments which it passes; lines as for `VecFun`. -/
def VecFun.method [Zero T] [One T] [Add T] [Sub T] [Mul T] [Div T] : VecFun T → LibMethod T
  | .add => .add
  | .sub => .sub
  | .div => .div
  | .mul => .mul
  | .zeroPad points option => .zeroPadB points (translateToPaddingOption option)
  | .zeroInterleave factor => .zeroInterleaveB (asU32 factor)
  | .diff => .diff
  | .diffWithStart => .diffWithStart
  | .cumSum => .cumSum
  | .realOffset value => .offset value
  | .realScale value => .scale value
  | .abs => .abs
  | .sqrt => .sqrt
  | .square => .square
  | .root value => .root value
  | .powf value => .powf value
  | .ln => .ln
  | .exp => .exp
  | .log value => .log value
  | .expf value => .expf value
  | .toComplex => .toComplexB
  | .sin => .sin
  | .cos => .cos
  | .tan => .tan
  | .asin => .asin
  | .acos => .acos
  | .atan => .tan
  | .sinh => .sinh
  | .cosh => .cosh
  | .tanh => .tanh
  | .asinh => .asinh
  | .acosh => .acosh
  | .atanh => .atanh
  | .lnApprox => .lnApprox
  | .expApprox => .expApprox
  | .sinApprox => .sinApprox
  | .cosApprox => .cosApprox
  | .logApprox value => .logApprox value
  | .expfApprox value => .expfApprox value
  | .powfApprox value => .powfApprox value
  | .wrap value => .wrap value
  | .unwrap value => .unwrap value
  | .swapHalves => .swapHalves
  | .complexOffset real imag => .offsetComplex ⟨real, imag⟩
  | .complexScale real imag => .scaleComplex ⟨real, imag⟩
  | .complexDivide real imag => .scaleComplex ((⟨1, 0⟩ : Cx T) / ⟨real, imag⟩)
  | .magnitude => .magnitudeB
  | .magnitudeSquared => .magnitudeSquaredB
  | .conj => .conj
  | .toReal => .toRealB
  | .toImag => .toImagB
  | .mapInplaceReal map => .mapInplace map
  | .mapInplaceComplex map => .mapInplaceComplex map
  | .phase => .phaseB
  | .plainFft => .plainFft
  | .plainSfft => .plainSfft
  | .plainIfft => .plainIfft
  | .multiplyComplexExponential a b => .multiplyComplexExponential a b
  | .addVector => .add
  | .subVector => .sub
  | .divVector => .div
  | .mulVector => .mul
  | .addSmallerVector => .addSmaller
  | .subSmallerVector => .subSmaller
  | .divSmallerVector => .divSmaller
  | .mulSmallerVector => .mulSmaller
  | .setRealImag => .setRealImag
  | .setMagPhase => .setMagPhase
  | .merge => .merge
  | .fft => .fft
  | .sfft => .sfft
  | .ifft => .ifft
  | .plainSifft => .plainSifft
  | .sifft => .sifft
  | .mirror => .mirror
  | .fftShift => .fftShift
  | .ifftShift => .ifftShift
  | .applyWindow window => .applyWindow (translateToWindowFunction window)
  | .unapplyWindow window => .unapplyWindow (translateToWindowFunction window)
  | .windowedFft window => .windowedFft (translateToWindowFunction window)
  | .windowedSfft window => .windowedSfft (translateToWindowFunction window)
  | .windowedIfft window => .windowedIfft (translateToWindowFunction window)
  | .windowedSifft window => .windowedSifft (translateToWindowFunction window)
  | .applyCustomWindow window windowData isSymmetric => .applyWindow (foreignWindow window windowData isSymmetric)
  | .unapplyCustomWindow window windowData isSymmetric => .unapplyWindow (foreignWindow window windowData isSymmetric)
  | .windowedCustomFft window windowData isSymmetric => .windowedFft (foreignWindow window windowData isSymmetric)
  | .windowedCustomSfft window windowData isSymmetric => .windowedSfft (foreignWindow window windowData isSymmetric)
  | .windowedCustomIfft window windowData isSymmetric => .windowedIfft (foreignWindow window windowData isSymmetric)
  | .windowedCustomSifft window windowData isSymmetric => .windowedSifft (foreignWindow window windowData isSymmetric)
  | .reverse => .reverse
  | .decimatei factor delay => .decimatei factor delay
  | .prepareArgument => .prepareArgument
  | .prepareArgumentPadded => .prepareArgumentPadded
  | .correlate => .correlate
  | .convolveSignal => .convolveSignal
  | .convolveReal impulseResponse data isSymmetric ratio len => .convolve (foreignResponse impulseResponse data isSymmetric) ratio len
  | .convolveComplex impulseResponse data isSymmetric ratio len => .convolveComplex (foreignComplexResponse impulseResponse data isSymmetric) ratio len
  | .convolve impulseResponse rolloff ratio len => .convolve (translateToRealFunction impulseResponse rolloff) ratio len
  | .multiplyFrequencyResponseReal impulseResponse data isSymmetric ratio => .multiplyFrequencyResponse (foreignResponse impulseResponse data isSymmetric) ratio
  | .multiplyFrequencyResponseComplex impulseResponse data isSymmetric ratio => .multiplyFrequencyResponseComplex (foreignComplexResponse impulseResponse data isSymmetric) ratio
  | .multiplyFrequencyResponse impulseResponse rolloff ratio => .multiplyFrequencyResponse (translateToRealFunction impulseResponse rolloff) ratio
  | .interpolatefCustom impulseResponse data isSymmetric factor delay len => .interpolatef (foreignResponse impulseResponse data isSymmetric) factor delay len
  | .interpolatef impulseResponse rolloff factor delay len => .interpolatef (translateToRealFunction impulseResponse rolloff) factor delay len
  | .interpolateCustom impulseResponse data isSymmetric destPoints delay => .interpolate (foreignResponse impulseResponse data isSymmetric) destPoints delay
  | .interpolate impulseResponse rolloff destPoints delay => .interpolate (translateToRealFunction impulseResponse rolloff) destPoints delay
  | .interpft destPoints => .interpft destPoints
  | .interpolateiCustom impulseResponse data isSymmetric factor => .interpolatei (foreignResponse impulseResponse data isSymmetric) (asU32 factor)
  | .interpolatei impulseResponse rolloff factor => .interpolatei (translateToRealFunction impulseResponse rolloff) (asU32 factor)
  | .interpolateLin factor delay => .interpolateLin factor delay
  | .interpolateHermite factor delay => .interpolateHermite factor delay

/-- Whether an exported function goes through `trans_vec` (otherwise through `convert_vec`), lines as for `VecFun`. -/
def VecFun.transforms : VecFun T → Bool
  | .toComplex => true
  | .magnitude => true
  | .magnitudeSquared => true
  | .toReal => true
  | .toImag => true
  | .phase => true
  | .plainFft => true
  | .plainSfft => true
  | .plainIfft => true
  | .fft => true
  | .sfft => true
  | .ifft => true
  | .plainSifft => true
  | .sifft => true
  | .windowedFft _ => true
  | .windowedSfft _ => true
  | .windowedIfft _ => true
  | .windowedSifft _ => true
  | .windowedCustomFft _ _ _ => true
  | .windowedCustomSfft _ _ _ => true
  | .windowedCustomIfft _ _ _ => true
  | .windowedCustomSifft _ _ _ => true
  | .prepareArgument => true
  | .prepareArgumentPadded => true
  | _ => false

/-- The parameters after the first one which are vectors, lines as for `VecFun`. -/
def VecFun.operands : VecFun T → OperandSig
  | .add => .params [.ref]
  | .sub => .params [.refBox]
  | .div => .params [.ref]
  | .mul => .params [.ref]
  | .addVector => .params [.ref]
  | .subVector => .params [.ref]
  | .divVector => .params [.ref]
  | .mulVector => .params [.ref]
  | .addSmallerVector => .params [.ref]
  | .subSmallerVector => .params [.ref]
  | .divSmallerVector => .params [.ref]
  | .mulSmallerVector => .params [.ref]
  | .setRealImag => .params [.ref, .ref]
  | .setMagPhase => .params [.ref, .ref]
  | .merge => .array
  | .correlate => .params [.ref]
  | .convolveSignal => .params [.ref]
  | _ => .params []

/-- Whether a function is marked with `#[no_mangle]`, without which a C program can not link to it; lines as for `VecFun`. -/
def VecFun.linkable : VecFun T → Bool
  | .fftShift => false
  | .ifftShift => false
  | _ => true

end Dsp
