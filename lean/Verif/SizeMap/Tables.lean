/-
Generated by transcription of the `List[]` arrays in /repo/tcmalloc/{size_classes,
legacy_size_classes,experimental_pow2_size_class,reuse_relaxed_below_64_size_classes}.cc.
Each definition cites the lines of its array.
-/
import Verif.SizeMap.Model

namespace Verif.SizeMap

/-- size_classes.cc:57-108, default new alignment <= 8, page shift 13. -/
def reuse_a8_p13 : List Info := [
  ⟨0, 0, 0⟩,
  ⟨8, 8192, 32⟩,
  ⟨16, 8192, 32⟩,
  ⟨32, 8192, 32⟩,
  ⟨64, 8192, 32⟩,
  ⟨80, 8192, 32⟩,
  ⟨96, 8192, 32⟩,
  ⟨112, 8192, 32⟩,
  ⟨128, 8192, 32⟩,
  ⟨160, 8192, 32⟩,
  ⟨184, 8192, 32⟩,
  ⟨208, 8192, 32⟩,
  ⟨256, 8192, 32⟩,
  ⟨312, 8192, 32⟩,
  ⟨368, 8192, 32⟩,
  ⟨448, 8192, 32⟩,
  ⟨512, 8192, 32⟩,
  ⟨576, 8192, 32⟩,
  ⟨704, 8192, 32⟩,
  ⟨896, 8192, 32⟩,
  ⟨1024, 8192, 32⟩,
  ⟨1152, 16384, 32⟩,
  ⟨1408, 16384, 32⟩,
  ⟨1792, 16384, 32⟩,
  ⟨2048, 8192, 32⟩,
  ⟨2304, 16384, 28⟩,
  ⟨2688, 16384, 24⟩,
  ⟨3456, 24576, 18⟩,
  ⟨4096, 8192, 16⟩,
  ⟨4736, 24576, 13⟩,
  ⟨6144, 24576, 10⟩,
  ⟨8192, 8192, 8⟩,
  ⟨9472, 40960, 6⟩,
  ⟨12288, 24576, 5⟩,
  ⟨16384, 16384, 4⟩,
  ⟨20480, 40960, 3⟩,
  ⟨28672, 57344, 2⟩,
  ⟨32768, 32768, 2⟩,
  ⟨40960, 40960, 2⟩,
  ⟨49152, 49152, 2⟩,
  ⟨65536, 65536, 2⟩,
  ⟨73728, 73728, 2⟩,
  ⟨81920, 81920, 2⟩,
  ⟨98304, 98304, 2⟩,
  ⟨131072, 131072, 2⟩,
  ⟨155648, 155648, 2⟩,
  ⟨204800, 204800, 2⟩,
  ⟨262144, 262144, 2⟩]

/-- size_classes.cc:118-169, default new alignment <= 8, page shift 15. -/
def reuse_a8_p15 : List Info := [
  ⟨0, 0, 0⟩,
  ⟨8, 32768, 32⟩,
  ⟨16, 32768, 32⟩,
  ⟨32, 32768, 32⟩,
  ⟨64, 32768, 32⟩,
  ⟨80, 32768, 32⟩,
  ⟨88, 32768, 32⟩,
  ⟨112, 32768, 32⟩,
  ⟨128, 32768, 32⟩,
  ⟨160, 32768, 32⟩,
  ⟨200, 32768, 32⟩,
  ⟨256, 32768, 32⟩,
  ⟨312, 32768, 32⟩,
  ⟨376, 32768, 32⟩,
  ⟨448, 32768, 32⟩,
  ⟨512, 32768, 32⟩,
  ⟨640, 32768, 32⟩,
  ⟨768, 32768, 32⟩,
  ⟨896, 32768, 32⟩,
  ⟨1024, 32768, 32⟩,
  ⟨1152, 32768, 32⟩,
  ⟨1280, 32768, 32⟩,
  ⟨1536, 32768, 32⟩,
  ⟨2048, 32768, 32⟩,
  ⟨2304, 32768, 28⟩,
  ⟨2688, 32768, 24⟩,
  ⟨3200, 32768, 20⟩,
  ⟨4096, 32768, 16⟩,
  ⟨4608, 32768, 14⟩,
  ⟨5376, 32768, 12⟩,
  ⟨6528, 32768, 10⟩,
  ⟨8192, 32768, 8⟩,
  ⟨9344, 65536, 7⟩,
  ⟨13056, 65536, 5⟩,
  ⟨16384, 32768, 4⟩,
  ⟨21760, 65536, 3⟩,
  ⟨28032, 196608, 2⟩,
  ⟨32768, 32768, 2⟩,
  ⟨38144, 163840, 2⟩,
  ⟨49152, 98304, 2⟩,
  ⟨57344, 229376, 2⟩,
  ⟨65536, 65536, 2⟩,
  ⟨81920, 163840, 2⟩,
  ⟨114688, 229376, 2⟩,
  ⟨131072, 131072, 2⟩,
  ⟨163840, 163840, 2⟩,
  ⟨229376, 229376, 2⟩,
  ⟨262144, 262144, 2⟩]

/-- size_classes.cc:179-233, default new alignment <= 8, page shift 18. -/
def reuse_a8_p18 : List Info := [
  ⟨0, 0, 0⟩,
  ⟨8, 262144, 32⟩,
  ⟨16, 262144, 32⟩,
  ⟨32, 262144, 32⟩,
  ⟨64, 262144, 32⟩,
  ⟨80, 262144, 32⟩,
  ⟨96, 262144, 32⟩,
  ⟨112, 262144, 32⟩,
  ⟨128, 262144, 32⟩,
  ⟨152, 262144, 32⟩,
  ⟨192, 262144, 32⟩,
  ⟨256, 262144, 32⟩,
  ⟨304, 262144, 32⟩,
  ⟨384, 262144, 32⟩,
  ⟨448, 262144, 32⟩,
  ⟨512, 262144, 32⟩,
  ⟨576, 262144, 32⟩,
  ⟨640, 262144, 32⟩,
  ⟨768, 262144, 32⟩,
  ⟨832, 262144, 32⟩,
  ⟨1024, 262144, 32⟩,
  ⟨1280, 262144, 32⟩,
  ⟨1664, 262144, 32⟩,
  ⟨2048, 262144, 32⟩,
  ⟨2560, 262144, 25⟩,
  ⟨3200, 262144, 20⟩,
  ⟨4096, 262144, 16⟩,
  ⟨4480, 262144, 14⟩,
  ⟨5120, 262144, 12⟩,
  ⟨6528, 262144, 10⟩,
  ⟨8192, 262144, 8⟩,
  ⟨9600, 262144, 6⟩,
  ⟨11392, 262144, 5⟩,
  ⟨13056, 262144, 5⟩,
  ⟨16384, 262144, 4⟩,
  ⟨21760, 262144, 3⟩,
  ⟨26112, 262144, 2⟩,
  ⟨29056, 262144, 2⟩,
  ⟨32768, 262144, 2⟩,
  ⟨37376, 262144, 2⟩,
  ⟨43648, 262144, 2⟩,
  ⟨52352, 262144, 2⟩,
  ⟨65536, 262144, 2⟩,
  ⟨74880, 524288, 2⟩,
  ⟨87296, 262144, 2⟩,
  ⟨104832, 524288, 2⟩,
  ⟨131072, 262144, 2⟩,
  ⟨149760, 786432, 2⟩,
  ⟨174720, 524288, 2⟩,
  ⟨209664, 1048576, 2⟩,
  ⟨262144, 262144, 2⟩]

/-- size_classes.cc:243-272, default new alignment <= 8, page shift 12. -/
def reuse_a8_p12 : List Info := [
  ⟨0, 0, 0⟩,
  ⟨8, 4096, 32⟩,
  ⟨16, 4096, 32⟩,
  ⟨32, 4096, 32⟩,
  ⟨64, 4096, 32⟩,
  ⟨72, 4096, 32⟩,
  ⟨80, 4096, 32⟩,
  ⟨96, 4096, 32⟩,
  ⟨128, 4096, 32⟩,
  ⟨144, 4096, 32⟩,
  ⟨160, 4096, 32⟩,
  ⟨224, 4096, 32⟩,
  ⟨256, 4096, 32⟩,
  ⟨288, 4096, 32⟩,
  ⟨368, 4096, 32⟩,
  ⟨512, 4096, 32⟩,
  ⟨576, 8192, 32⟩,
  ⟨768, 8192, 32⟩,
  ⟨1024, 8192, 32⟩,
  ⟨1536, 12288, 32⟩,
  ⟨2048, 16384, 32⟩,
  ⟨2688, 16384, 24⟩,
  ⟨4096, 16384, 16⟩,
  ⟨4736, 20480, 13⟩,
  ⟨6144, 12288, 10⟩,
  ⟨8192, 16384, 8⟩]

/-- size_classes.cc:286-337, default new alignment > 8, page shift 13. -/
def reuse_a16_p13 : List Info := [
  ⟨0, 0, 0⟩,
  ⟨8, 8192, 32⟩,
  ⟨16, 8192, 32⟩,
  ⟨32, 8192, 32⟩,
  ⟨64, 8192, 32⟩,
  ⟨80, 8192, 32⟩,
  ⟨96, 8192, 32⟩,
  ⟨112, 8192, 32⟩,
  ⟨128, 8192, 32⟩,
  ⟨160, 8192, 32⟩,
  ⟨176, 8192, 32⟩,
  ⟨208, 8192, 32⟩,
  ⟨256, 8192, 32⟩,
  ⟨304, 8192, 32⟩,
  ⟨368, 8192, 32⟩,
  ⟨448, 8192, 32⟩,
  ⟨512, 8192, 32⟩,
  ⟨576, 8192, 32⟩,
  ⟨704, 8192, 32⟩,
  ⟨896, 8192, 32⟩,
  ⟨1024, 8192, 32⟩,
  ⟨1152, 16384, 32⟩,
  ⟨1408, 16384, 32⟩,
  ⟨1792, 16384, 32⟩,
  ⟨2048, 8192, 32⟩,
  ⟨2304, 16384, 28⟩,
  ⟨2688, 16384, 24⟩,
  ⟨3456, 24576, 18⟩,
  ⟨4096, 8192, 16⟩,
  ⟨4736, 24576, 13⟩,
  ⟨6144, 24576, 10⟩,
  ⟨8192, 8192, 8⟩,
  ⟨9472, 40960, 6⟩,
  ⟨12288, 24576, 5⟩,
  ⟨16384, 16384, 4⟩,
  ⟨20480, 40960, 3⟩,
  ⟨28672, 57344, 2⟩,
  ⟨32768, 32768, 2⟩,
  ⟨40960, 40960, 2⟩,
  ⟨49152, 49152, 2⟩,
  ⟨65536, 65536, 2⟩,
  ⟨73728, 73728, 2⟩,
  ⟨81920, 81920, 2⟩,
  ⟨98304, 98304, 2⟩,
  ⟨131072, 131072, 2⟩,
  ⟨155648, 155648, 2⟩,
  ⟨204800, 204800, 2⟩,
  ⟨262144, 262144, 2⟩]

/-- size_classes.cc:347-398, default new alignment > 8, page shift 15. -/
def reuse_a16_p15 : List Info := [
  ⟨0, 0, 0⟩,
  ⟨8, 32768, 32⟩,
  ⟨16, 32768, 32⟩,
  ⟨32, 32768, 32⟩,
  ⟨64, 32768, 32⟩,
  ⟨80, 32768, 32⟩,
  ⟨96, 32768, 32⟩,
  ⟨112, 32768, 32⟩,
  ⟨128, 32768, 32⟩,
  ⟨160, 32768, 32⟩,
  ⟨192, 32768, 32⟩,
  ⟨256, 32768, 32⟩,
  ⟨320, 32768, 32⟩,
  ⟨384, 32768, 32⟩,
  ⟨448, 32768, 32⟩,
  ⟨512, 32768, 32⟩,
  ⟨640, 32768, 32⟩,
  ⟨768, 32768, 32⟩,
  ⟨896, 32768, 32⟩,
  ⟨1024, 32768, 32⟩,
  ⟨1152, 32768, 32⟩,
  ⟨1280, 32768, 32⟩,
  ⟨1536, 32768, 32⟩,
  ⟨2048, 32768, 32⟩,
  ⟨2304, 32768, 28⟩,
  ⟨2688, 32768, 24⟩,
  ⟨3200, 32768, 20⟩,
  ⟨4096, 32768, 16⟩,
  ⟨4608, 32768, 14⟩,
  ⟨5376, 32768, 12⟩,
  ⟨6528, 32768, 10⟩,
  ⟨8192, 32768, 8⟩,
  ⟨9344, 65536, 7⟩,
  ⟨13056, 65536, 5⟩,
  ⟨16384, 32768, 4⟩,
  ⟨21760, 65536, 3⟩,
  ⟨28032, 196608, 2⟩,
  ⟨32768, 32768, 2⟩,
  ⟨38144, 163840, 2⟩,
  ⟨49152, 98304, 2⟩,
  ⟨57344, 229376, 2⟩,
  ⟨65536, 65536, 2⟩,
  ⟨81920, 163840, 2⟩,
  ⟨114688, 229376, 2⟩,
  ⟨131072, 131072, 2⟩,
  ⟨163840, 163840, 2⟩,
  ⟨229376, 229376, 2⟩,
  ⟨262144, 262144, 2⟩]

/-- size_classes.cc:408-462, default new alignment > 8, page shift 18. -/
def reuse_a16_p18 : List Info := [
  ⟨0, 0, 0⟩,
  ⟨8, 262144, 32⟩,
  ⟨16, 262144, 32⟩,
  ⟨32, 262144, 32⟩,
  ⟨64, 262144, 32⟩,
  ⟨80, 262144, 32⟩,
  ⟨96, 262144, 32⟩,
  ⟨112, 262144, 32⟩,
  ⟨128, 262144, 32⟩,
  ⟨160, 262144, 32⟩,
  ⟨192, 262144, 32⟩,
  ⟨256, 262144, 32⟩,
  ⟨304, 262144, 32⟩,
  ⟨384, 262144, 32⟩,
  ⟨448, 262144, 32⟩,
  ⟨512, 262144, 32⟩,
  ⟨576, 262144, 32⟩,
  ⟨640, 262144, 32⟩,
  ⟨768, 262144, 32⟩,
  ⟨832, 262144, 32⟩,
  ⟨1024, 262144, 32⟩,
  ⟨1280, 262144, 32⟩,
  ⟨1664, 262144, 32⟩,
  ⟨2048, 262144, 32⟩,
  ⟨2560, 262144, 25⟩,
  ⟨3200, 262144, 20⟩,
  ⟨4096, 262144, 16⟩,
  ⟨4480, 262144, 14⟩,
  ⟨5120, 262144, 12⟩,
  ⟨6528, 262144, 10⟩,
  ⟨8192, 262144, 8⟩,
  ⟨9600, 262144, 6⟩,
  ⟨11392, 262144, 5⟩,
  ⟨13056, 262144, 5⟩,
  ⟨16384, 262144, 4⟩,
  ⟨21760, 262144, 3⟩,
  ⟨26112, 262144, 2⟩,
  ⟨29056, 262144, 2⟩,
  ⟨32768, 262144, 2⟩,
  ⟨37376, 262144, 2⟩,
  ⟨43648, 262144, 2⟩,
  ⟨52352, 262144, 2⟩,
  ⟨65536, 262144, 2⟩,
  ⟨74880, 524288, 2⟩,
  ⟨87296, 262144, 2⟩,
  ⟨104832, 524288, 2⟩,
  ⟨131072, 262144, 2⟩,
  ⟨149760, 786432, 2⟩,
  ⟨174720, 524288, 2⟩,
  ⟨209664, 1048576, 2⟩,
  ⟨262144, 262144, 2⟩]

/-- size_classes.cc:472-501, default new alignment > 8, page shift 12. -/
def reuse_a16_p12 : List Info := [
  ⟨0, 0, 0⟩,
  ⟨8, 4096, 32⟩,
  ⟨16, 4096, 32⟩,
  ⟨32, 4096, 32⟩,
  ⟨64, 4096, 32⟩,
  ⟨80, 4096, 32⟩,
  ⟨96, 4096, 32⟩,
  ⟨128, 4096, 32⟩,
  ⟨144, 4096, 32⟩,
  ⟨160, 4096, 32⟩,
  ⟨224, 4096, 32⟩,
  ⟨256, 4096, 32⟩,
  ⟨288, 4096, 32⟩,
  ⟨368, 4096, 32⟩,
  ⟨512, 4096, 32⟩,
  ⟨576, 8192, 32⟩,
  ⟨768, 8192, 32⟩,
  ⟨1024, 8192, 32⟩,
  ⟨1536, 12288, 32⟩,
  ⟨2048, 16384, 32⟩,
  ⟨2688, 16384, 24⟩,
  ⟨3328, 20480, 19⟩,
  ⟨4096, 16384, 16⟩,
  ⟨4736, 20480, 13⟩,
  ⟨6144, 12288, 10⟩,
  ⟨8192, 16384, 8⟩]

/-- legacy_size_classes.cc:57-146, default new alignment <= 8, page shift 13. -/
def legacy_a8_p13 : List Info := [
  ⟨0, 0, 0⟩,
  ⟨8, 8192, 32⟩,
  ⟨16, 8192, 32⟩,
  ⟨24, 8192, 32⟩,
  ⟨32, 8192, 32⟩,
  ⟨40, 8192, 32⟩,
  ⟨48, 8192, 32⟩,
  ⟨56, 8192, 32⟩,
  ⟨64, 8192, 32⟩,
  ⟨72, 8192, 32⟩,
  ⟨80, 8192, 32⟩,
  ⟨88, 8192, 32⟩,
  ⟨96, 8192, 32⟩,
  ⟨104, 8192, 32⟩,
  ⟨112, 8192, 32⟩,
  ⟨120, 8192, 32⟩,
  ⟨128, 8192, 32⟩,
  ⟨136, 8192, 32⟩,
  ⟨144, 8192, 32⟩,
  ⟨160, 8192, 32⟩,
  ⟨168, 8192, 32⟩,
  ⟨176, 8192, 32⟩,
  ⟨184, 8192, 32⟩,
  ⟨192, 8192, 32⟩,
  ⟨208, 8192, 32⟩,
  ⟨224, 8192, 32⟩,
  ⟨240, 8192, 32⟩,
  ⟨256, 8192, 32⟩,
  ⟨272, 8192, 32⟩,
  ⟨296, 8192, 32⟩,
  ⟨312, 8192, 32⟩,
  ⟨320, 8192, 32⟩,
  ⟨352, 8192, 32⟩,
  ⟨368, 8192, 32⟩,
  ⟨384, 8192, 32⟩,
  ⟨408, 8192, 32⟩,
  ⟨424, 8192, 32⟩,
  ⟨448, 8192, 32⟩,
  ⟨480, 8192, 32⟩,
  ⟨512, 8192, 32⟩,
  ⟨576, 8192, 32⟩,
  ⟨640, 8192, 32⟩,
  ⟨704, 8192, 32⟩,
  ⟨768, 8192, 32⟩,
  ⟨896, 8192, 32⟩,
  ⟨1024, 8192, 32⟩,
  ⟨1152, 16384, 32⟩,
  ⟨1280, 16384, 32⟩,
  ⟨1408, 16384, 32⟩,
  ⟨1536, 16384, 32⟩,
  ⟨1792, 16384, 32⟩,
  ⟨2048, 8192, 32⟩,
  ⟨2304, 16384, 28⟩,
  ⟨2688, 16384, 24⟩,
  ⟨3200, 16384, 20⟩,
  ⟨3584, 32768, 18⟩,
  ⟨4096, 8192, 16⟩,
  ⟨4736, 24576, 13⟩,
  ⟨5376, 16384, 12⟩,
  ⟨6144, 24576, 10⟩,
  ⟨7168, 57344, 9⟩,
  ⟨8192, 8192, 8⟩,
  ⟨9472, 40960, 6⟩,
  ⟨10240, 32768, 6⟩,
  ⟨12288, 24576, 5⟩,
  ⟨14336, 57344, 4⟩,
  ⟨16384, 16384, 4⟩,
  ⟨20480, 40960, 3⟩,
  ⟨24576, 24576, 2⟩,
  ⟨28672, 57344, 2⟩,
  ⟨32768, 32768, 2⟩,
  ⟨40960, 40960, 2⟩,
  ⟨49152, 49152, 2⟩,
  ⟨57344, 57344, 2⟩,
  ⟨65536, 65536, 2⟩,
  ⟨73728, 73728, 2⟩,
  ⟨81920, 81920, 2⟩,
  ⟨98304, 98304, 2⟩,
  ⟨114688, 114688, 2⟩,
  ⟨131072, 131072, 2⟩,
  ⟨139264, 139264, 2⟩,
  ⟨155648, 155648, 2⟩,
  ⟨172032, 172032, 2⟩,
  ⟨204800, 204800, 2⟩,
  ⟨221184, 221184, 2⟩,
  ⟨262144, 262144, 2⟩]

/-- legacy_size_classes.cc:156-237, default new alignment <= 8, page shift 15. -/
def legacy_a8_p15 : List Info := [
  ⟨0, 0, 0⟩,
  ⟨8, 32768, 32⟩,
  ⟨16, 32768, 32⟩,
  ⟨24, 32768, 32⟩,
  ⟨32, 32768, 32⟩,
  ⟨40, 32768, 32⟩,
  ⟨48, 32768, 32⟩,
  ⟨56, 32768, 32⟩,
  ⟨64, 32768, 32⟩,
  ⟨72, 32768, 32⟩,
  ⟨80, 32768, 32⟩,
  ⟨88, 32768, 32⟩,
  ⟨96, 32768, 32⟩,
  ⟨104, 32768, 32⟩,
  ⟨112, 32768, 32⟩,
  ⟨120, 32768, 32⟩,
  ⟨128, 32768, 32⟩,
  ⟨136, 32768, 32⟩,
  ⟨144, 32768, 32⟩,
  ⟨160, 32768, 32⟩,
  ⟨176, 32768, 32⟩,
  ⟨184, 32768, 32⟩,
  ⟨200, 32768, 32⟩,
  ⟨216, 32768, 32⟩,
  ⟨232, 32768, 32⟩,
  ⟨256, 32768, 32⟩,
  ⟨280, 32768, 32⟩,
  ⟨312, 32768, 32⟩,
  ⟨368, 32768, 32⟩,
  ⟨400, 32768, 32⟩,
  ⟨448, 32768, 32⟩,
  ⟨512, 32768, 32⟩,
  ⟨576, 32768, 32⟩,
  ⟨640, 32768, 32⟩,
  ⟨768, 32768, 32⟩,
  ⟨896, 32768, 32⟩,
  ⟨1024, 32768, 32⟩,
  ⟨1152, 32768, 32⟩,
  ⟨1280, 32768, 32⟩,
  ⟨1408, 32768, 32⟩,
  ⟨1536, 32768, 32⟩,
  ⟨1664, 32768, 32⟩,
  ⟨1920, 32768, 32⟩,
  ⟨2048, 32768, 32⟩,
  ⟨2176, 32768, 30⟩,
  ⟨2304, 32768, 28⟩,
  ⟨2688, 32768, 24⟩,
  ⟨3200, 32768, 20⟩,
  ⟨3584, 32768, 18⟩,
  ⟨4096, 32768, 16⟩,
  ⟨4608, 32768, 14⟩,
  ⟨5376, 32768, 12⟩,
  ⟨5632, 65536, 11⟩,
  ⟨6528, 32768, 10⟩,
  ⟨7168, 65536, 9⟩,
  ⟨8192, 32768, 8⟩,
  ⟨9344, 65536, 7⟩,
  ⟨10880, 32768, 6⟩,
  ⟨13056, 65536, 5⟩,
  ⟨14336, 131072, 4⟩,
  ⟨16384, 32768, 4⟩,
  ⟨19072, 98304, 3⟩,
  ⟨21760, 65536, 3⟩,
  ⟨24576, 98304, 2⟩,
  ⟨28032, 196608, 2⟩,
  ⟨32768, 32768, 2⟩,
  ⟨38144, 163840, 2⟩,
  ⟨49152, 98304, 2⟩,
  ⟨54528, 163840, 2⟩,
  ⟨65536, 65536, 2⟩,
  ⟨81920, 163840, 2⟩,
  ⟨98304, 98304, 2⟩,
  ⟨114688, 229376, 2⟩,
  ⟨131072, 131072, 2⟩,
  ⟨163840, 163840, 2⟩,
  ⟨196608, 196608, 2⟩,
  ⟨229376, 229376, 2⟩,
  ⟨262144, 262144, 2⟩]

/-- legacy_size_classes.cc:247-339, default new alignment <= 8, page shift 18. -/
def legacy_a8_p18 : List Info := [
  ⟨0, 0, 0⟩,
  ⟨8, 262144, 32⟩,
  ⟨16, 262144, 32⟩,
  ⟨24, 262144, 32⟩,
  ⟨32, 262144, 32⟩,
  ⟨40, 262144, 32⟩,
  ⟨48, 262144, 32⟩,
  ⟨56, 262144, 32⟩,
  ⟨64, 262144, 32⟩,
  ⟨72, 262144, 32⟩,
  ⟨80, 262144, 32⟩,
  ⟨88, 262144, 32⟩,
  ⟨96, 262144, 32⟩,
  ⟨104, 262144, 32⟩,
  ⟨112, 262144, 32⟩,
  ⟨120, 262144, 32⟩,
  ⟨128, 262144, 32⟩,
  ⟨136, 262144, 32⟩,
  ⟨144, 262144, 32⟩,
  ⟨160, 262144, 32⟩,
  ⟨176, 262144, 32⟩,
  ⟨192, 262144, 32⟩,
  ⟨208, 262144, 32⟩,
  ⟨224, 262144, 32⟩,
  ⟨240, 262144, 32⟩,
  ⟨256, 262144, 32⟩,
  ⟨272, 262144, 32⟩,
  ⟨304, 262144, 32⟩,
  ⟨336, 262144, 32⟩,
  ⟨360, 262144, 32⟩,
  ⟨384, 262144, 32⟩,
  ⟨408, 262144, 32⟩,
  ⟨448, 262144, 32⟩,
  ⟨472, 262144, 32⟩,
  ⟨512, 262144, 32⟩,
  ⟨576, 262144, 32⟩,
  ⟨640, 262144, 32⟩,
  ⟨704, 262144, 32⟩,
  ⟨768, 262144, 32⟩,
  ⟨896, 262144, 32⟩,
  ⟨1024, 262144, 32⟩,
  ⟨1152, 262144, 32⟩,
  ⟨1280, 262144, 32⟩,
  ⟨1408, 262144, 32⟩,
  ⟨1536, 262144, 32⟩,
  ⟨1664, 262144, 32⟩,
  ⟨1920, 262144, 32⟩,
  ⟨2048, 262144, 32⟩,
  ⟨2304, 262144, 28⟩,
  ⟨2560, 262144, 25⟩,
  ⟨2816, 262144, 23⟩,
  ⟨3200, 262144, 20⟩,
  ⟨3840, 262144, 17⟩,
  ⟨4096, 262144, 16⟩,
  ⟨4224, 262144, 15⟩,
  ⟨4608, 262144, 14⟩,
  ⟨5120, 262144, 12⟩,
  ⟨5632, 262144, 11⟩,
  ⟨6144, 262144, 10⟩,
  ⟨6656, 262144, 9⟩,
  ⟨8192, 262144, 8⟩,
  ⟨9344, 262144, 7⟩,
  ⟨10368, 262144, 6⟩,
  ⟨11392, 262144, 5⟩,
  ⟨13056, 262144, 5⟩,
  ⟨15360, 262144, 4⟩,
  ⟨16384, 262144, 4⟩,
  ⟨18688, 262144, 3⟩,
  ⟨21760, 262144, 3⟩,
  ⟨23808, 262144, 2⟩,
  ⟨26112, 262144, 2⟩,
  ⟨29056, 262144, 2⟩,
  ⟨32768, 262144, 2⟩,
  ⟨37376, 262144, 2⟩,
  ⟨43648, 262144, 2⟩,
  ⟨45568, 524288, 2⟩,
  ⟨52352, 262144, 2⟩,
  ⟨56064, 524288, 2⟩,
  ⟨65536, 262144, 2⟩,
  ⟨74880, 524288, 2⟩,
  ⟨87296, 262144, 2⟩,
  ⟨104832, 524288, 2⟩,
  ⟨112256, 786432, 2⟩,
  ⟨131072, 262144, 2⟩,
  ⟨149760, 786432, 2⟩,
  ⟨174720, 524288, 2⟩,
  ⟨196608, 786432, 2⟩,
  ⟨209664, 1048576, 2⟩,
  ⟨262144, 262144, 2⟩]

/-- legacy_size_classes.cc:349-398, default new alignment <= 8, page shift 12. -/
def legacy_a8_p12 : List Info := [
  ⟨0, 0, 0⟩,
  ⟨8, 4096, 32⟩,
  ⟨16, 4096, 32⟩,
  ⟨24, 4096, 32⟩,
  ⟨32, 4096, 32⟩,
  ⟨40, 4096, 32⟩,
  ⟨48, 4096, 32⟩,
  ⟨56, 4096, 32⟩,
  ⟨64, 4096, 32⟩,
  ⟨72, 4096, 32⟩,
  ⟨80, 4096, 32⟩,
  ⟨88, 4096, 32⟩,
  ⟨96, 4096, 32⟩,
  ⟨112, 4096, 32⟩,
  ⟨128, 4096, 32⟩,
  ⟨136, 4096, 32⟩,
  ⟨144, 4096, 32⟩,
  ⟨160, 4096, 32⟩,
  ⟨184, 4096, 32⟩,
  ⟨200, 4096, 32⟩,
  ⟨224, 4096, 32⟩,
  ⟨240, 4096, 32⟩,
  ⟨256, 4096, 32⟩,
  ⟨272, 4096, 32⟩,
  ⟨312, 4096, 32⟩,
  ⟨368, 4096, 32⟩,
  ⟨448, 4096, 32⟩,
  ⟨512, 4096, 32⟩,
  ⟨576, 8192, 32⟩,
  ⟨640, 8192, 32⟩,
  ⟨768, 8192, 32⟩,
  ⟨896, 8192, 32⟩,
  ⟨1024, 8192, 32⟩,
  ⟨1152, 12288, 32⟩,
  ⟨1280, 12288, 32⟩,
  ⟨1536, 12288, 32⟩,
  ⟨1792, 16384, 32⟩,
  ⟨2048, 16384, 32⟩,
  ⟨2304, 16384, 28⟩,
  ⟨2688, 16384, 24⟩,
  ⟨3328, 20480, 19⟩,
  ⟨4096, 16384, 16⟩,
  ⟨4736, 20480, 13⟩,
  ⟨6144, 12288, 10⟩,
  ⟨7168, 28672, 9⟩,
  ⟨8192, 16384, 8⟩]

/-- legacy_size_classes.cc:412-501, default new alignment > 8, page shift 13. -/
def legacy_a16_p13 : List Info := [
  ⟨0, 0, 0⟩,
  ⟨8, 8192, 32⟩,
  ⟨16, 8192, 32⟩,
  ⟨32, 8192, 32⟩,
  ⟨48, 8192, 32⟩,
  ⟨64, 8192, 32⟩,
  ⟨80, 8192, 32⟩,
  ⟨96, 8192, 32⟩,
  ⟨112, 8192, 32⟩,
  ⟨128, 8192, 32⟩,
  ⟨144, 8192, 32⟩,
  ⟨160, 8192, 32⟩,
  ⟨176, 8192, 32⟩,
  ⟨192, 8192, 32⟩,
  ⟨208, 8192, 32⟩,
  ⟨224, 8192, 32⟩,
  ⟨240, 8192, 32⟩,
  ⟨256, 8192, 32⟩,
  ⟨272, 8192, 32⟩,
  ⟨288, 8192, 32⟩,
  ⟨304, 8192, 32⟩,
  ⟨320, 8192, 32⟩,
  ⟨352, 8192, 32⟩,
  ⟨368, 8192, 32⟩,
  ⟨384, 8192, 32⟩,
  ⟨400, 8192, 32⟩,
  ⟨416, 8192, 32⟩,
  ⟨448, 8192, 32⟩,
  ⟨480, 8192, 32⟩,
  ⟨512, 8192, 32⟩,
  ⟨576, 8192, 32⟩,
  ⟨640, 8192, 32⟩,
  ⟨704, 8192, 32⟩,
  ⟨768, 8192, 32⟩,
  ⟨896, 8192, 32⟩,
  ⟨1024, 8192, 32⟩,
  ⟨1152, 16384, 32⟩,
  ⟨1280, 16384, 32⟩,
  ⟨1408, 16384, 32⟩,
  ⟨1536, 16384, 32⟩,
  ⟨1792, 16384, 32⟩,
  ⟨2048, 8192, 32⟩,
  ⟨2304, 16384, 28⟩,
  ⟨2688, 16384, 24⟩,
  ⟨2816, 24576, 23⟩,
  ⟨3200, 16384, 20⟩,
  ⟨3456, 24576, 18⟩,
  ⟨3584, 32768, 18⟩,
  ⟨4096, 8192, 16⟩,
  ⟨4736, 24576, 13⟩,
  ⟨5376, 16384, 12⟩,
  ⟨6144, 24576, 10⟩,
  ⟨6528, 32768, 10⟩,
  ⟨7168, 57344, 9⟩,
  ⟨8192, 8192, 8⟩,
  ⟨9472, 40960, 6⟩,
  ⟨10240, 32768, 6⟩,
  ⟨12288, 24576, 5⟩,
  ⟨13568, 40960, 4⟩,
  ⟨14336, 57344, 4⟩,
  ⟨16384, 16384, 4⟩,
  ⟨20480, 40960, 3⟩,
  ⟨24576, 24576, 2⟩,
  ⟨28672, 57344, 2⟩,
  ⟨32768, 32768, 2⟩,
  ⟨40960, 40960, 2⟩,
  ⟨49152, 49152, 2⟩,
  ⟨57344, 57344, 2⟩,
  ⟨65536, 65536, 2⟩,
  ⟨73728, 73728, 2⟩,
  ⟨81920, 81920, 2⟩,
  ⟨90112, 90112, 2⟩,
  ⟨98304, 98304, 2⟩,
  ⟨106496, 106496, 2⟩,
  ⟨114688, 114688, 2⟩,
  ⟨122880, 122880, 2⟩,
  ⟨131072, 131072, 2⟩,
  ⟨139264, 139264, 2⟩,
  ⟨147456, 147456, 2⟩,
  ⟨155648, 155648, 2⟩,
  ⟨172032, 172032, 2⟩,
  ⟨188416, 188416, 2⟩,
  ⟨204800, 204800, 2⟩,
  ⟨221184, 221184, 2⟩,
  ⟨245760, 245760, 2⟩,
  ⟨262144, 262144, 2⟩]

/-- legacy_size_classes.cc:511-592, default new alignment > 8, page shift 15. -/
def legacy_a16_p15 : List Info := [
  ⟨0, 0, 0⟩,
  ⟨8, 32768, 32⟩,
  ⟨16, 32768, 32⟩,
  ⟨32, 32768, 32⟩,
  ⟨48, 32768, 32⟩,
  ⟨64, 32768, 32⟩,
  ⟨80, 32768, 32⟩,
  ⟨96, 32768, 32⟩,
  ⟨112, 32768, 32⟩,
  ⟨128, 32768, 32⟩,
  ⟨144, 32768, 32⟩,
  ⟨160, 32768, 32⟩,
  ⟨176, 32768, 32⟩,
  ⟨192, 32768, 32⟩,
  ⟨208, 32768, 32⟩,
  ⟨224, 32768, 32⟩,
  ⟨240, 32768, 32⟩,
  ⟨256, 32768, 32⟩,
  ⟨272, 32768, 32⟩,
  ⟨304, 32768, 32⟩,
  ⟨320, 32768, 32⟩,
  ⟨368, 32768, 32⟩,
  ⟨384, 32768, 32⟩,
  ⟨400, 32768, 32⟩,
  ⟨448, 32768, 32⟩,
  ⟨512, 32768, 32⟩,
  ⟨576, 32768, 32⟩,
  ⟨640, 32768, 32⟩,
  ⟨704, 32768, 32⟩,
  ⟨768, 32768, 32⟩,
  ⟨832, 32768, 32⟩,
  ⟨896, 32768, 32⟩,
  ⟨1024, 32768, 32⟩,
  ⟨1152, 32768, 32⟩,
  ⟨1280, 32768, 32⟩,
  ⟨1408, 32768, 32⟩,
  ⟨1536, 32768, 32⟩,
  ⟨1664, 32768, 32⟩,
  ⟨1920, 32768, 32⟩,
  ⟨2048, 32768, 32⟩,
  ⟨2176, 32768, 30⟩,
  ⟨2304, 32768, 28⟩,
  ⟨2432, 32768, 26⟩,
  ⟨2688, 32768, 24⟩,
  ⟨2944, 32768, 22⟩,
  ⟨3200, 32768, 20⟩,
  ⟨3584, 32768, 18⟩,
  ⟨4096, 32768, 16⟩,
  ⟨4608, 32768, 14⟩,
  ⟨4736, 65536, 13⟩,
  ⟨5376, 32768, 12⟩,
  ⟨5632, 65536, 11⟩,
  ⟨6528, 32768, 10⟩,
  ⟨7168, 65536, 9⟩,
  ⟨8192, 32768, 8⟩,
  ⟨9344, 65536, 7⟩,
  ⟨10880, 32768, 6⟩,
  ⟨13056, 65536, 5⟩,
  ⟨14336, 131072, 4⟩,
  ⟨16384, 32768, 4⟩,
  ⟨19072, 98304, 3⟩,
  ⟨21760, 65536, 3⟩,
  ⟨24576, 98304, 2⟩,
  ⟨28032, 196608, 2⟩,
  ⟨32768, 32768, 2⟩,
  ⟨38144, 163840, 2⟩,
  ⟨40960, 131072, 2⟩,
  ⟨49152, 98304, 2⟩,
  ⟨54528, 163840, 2⟩,
  ⟨65536, 65536, 2⟩,
  ⟨81920, 163840, 2⟩,
  ⟨98304, 98304, 2⟩,
  ⟨114688, 229376, 2⟩,
  ⟨131072, 131072, 2⟩,
  ⟨163840, 163840, 2⟩,
  ⟨196608, 196608, 2⟩,
  ⟨229376, 229376, 2⟩,
  ⟨262144, 262144, 2⟩]

/-- legacy_size_classes.cc:602-694, default new alignment > 8, page shift 18. -/
def legacy_a16_p18 : List Info := [
  ⟨0, 0, 0⟩,
  ⟨8, 262144, 32⟩,
  ⟨16, 262144, 32⟩,
  ⟨32, 262144, 32⟩,
  ⟨48, 262144, 32⟩,
  ⟨64, 262144, 32⟩,
  ⟨80, 262144, 32⟩,
  ⟨96, 262144, 32⟩,
  ⟨112, 262144, 32⟩,
  ⟨128, 262144, 32⟩,
  ⟨144, 262144, 32⟩,
  ⟨160, 262144, 32⟩,
  ⟨176, 262144, 32⟩,
  ⟨192, 262144, 32⟩,
  ⟨208, 262144, 32⟩,
  ⟨224, 262144, 32⟩,
  ⟨240, 262144, 32⟩,
  ⟨256, 262144, 32⟩,
  ⟨272, 262144, 32⟩,
  ⟨288, 262144, 32⟩,
  ⟨304, 262144, 32⟩,
  ⟨320, 262144, 32⟩,
  ⟨352, 262144, 32⟩,
  ⟨384, 262144, 32⟩,
  ⟨416, 262144, 32⟩,
  ⟨448, 262144, 32⟩,
  ⟨480, 262144, 32⟩,
  ⟨512, 262144, 32⟩,
  ⟨576, 262144, 32⟩,
  ⟨640, 262144, 32⟩,
  ⟨704, 262144, 32⟩,
  ⟨768, 262144, 32⟩,
  ⟨896, 262144, 32⟩,
  ⟨1024, 262144, 32⟩,
  ⟨1152, 262144, 32⟩,
  ⟨1280, 262144, 32⟩,
  ⟨1408, 262144, 32⟩,
  ⟨1536, 262144, 32⟩,
  ⟨1664, 262144, 32⟩,
  ⟨1792, 262144, 32⟩,
  ⟨1920, 262144, 32⟩,
  ⟨2048, 262144, 32⟩,
  ⟨2176, 262144, 30⟩,
  ⟨2304, 262144, 28⟩,
  ⟨2560, 262144, 25⟩,
  ⟨2816, 262144, 23⟩,
  ⟨3200, 262144, 20⟩,
  ⟨3584, 262144, 18⟩,
  ⟨3840, 262144, 17⟩,
  ⟨4096, 262144, 16⟩,
  ⟨4224, 262144, 15⟩,
  ⟨4480, 262144, 14⟩,
  ⟨4736, 262144, 13⟩,
  ⟨5120, 262144, 12⟩,
  ⟨5632, 262144, 11⟩,
  ⟨6144, 262144, 10⟩,
  ⟨6656, 262144, 9⟩,
  ⟨7680, 262144, 8⟩,
  ⟨8192, 262144, 8⟩,
  ⟨9344, 262144, 7⟩,
  ⟨10368, 262144, 6⟩,
  ⟨11392, 262144, 5⟩,
  ⟨13056, 262144, 5⟩,
  ⟨15360, 262144, 4⟩,
  ⟨16384, 262144, 4⟩,
  ⟨17408, 262144, 3⟩,
  ⟨18688, 262144, 3⟩,
  ⟨20096, 262144, 3⟩,
  ⟨21760, 262144, 3⟩,
  ⟨23808, 262144, 2⟩,
  ⟨26112, 262144, 2⟩,
  ⟨29056, 262144, 2⟩,
  ⟨32768, 262144, 2⟩,
  ⟨37376, 262144, 2⟩,
  ⟨43648, 262144, 2⟩,
  ⟨45568, 524288, 2⟩,
  ⟨52352, 262144, 2⟩,
  ⟨56064, 524288, 2⟩,
  ⟨65536, 262144, 2⟩,
  ⟨74880, 524288, 2⟩,
  ⟨87296, 262144, 2⟩,
  ⟨104832, 524288, 2⟩,
  ⟨112256, 786432, 2⟩,
  ⟨131072, 262144, 2⟩,
  ⟨149760, 786432, 2⟩,
  ⟨174720, 524288, 2⟩,
  ⟨196608, 786432, 2⟩,
  ⟨209664, 1048576, 2⟩,
  ⟨262144, 262144, 2⟩]

/-- legacy_size_classes.cc:704-753, default new alignment > 8, page shift 12. -/
def legacy_a16_p12 : List Info := [
  ⟨0, 0, 0⟩,
  ⟨8, 4096, 32⟩,
  ⟨16, 4096, 32⟩,
  ⟨32, 4096, 32⟩,
  ⟨48, 4096, 32⟩,
  ⟨64, 4096, 32⟩,
  ⟨80, 4096, 32⟩,
  ⟨96, 4096, 32⟩,
  ⟨112, 4096, 32⟩,
  ⟨128, 4096, 32⟩,
  ⟨144, 4096, 32⟩,
  ⟨160, 4096, 32⟩,
  ⟨176, 4096, 32⟩,
  ⟨192, 4096, 32⟩,
  ⟨208, 4096, 32⟩,
  ⟨224, 4096, 32⟩,
  ⟨240, 4096, 32⟩,
  ⟨256, 4096, 32⟩,
  ⟨272, 4096, 32⟩,
  ⟨304, 4096, 32⟩,
  ⟨336, 4096, 32⟩,
  ⟨368, 4096, 32⟩,
  ⟨400, 4096, 32⟩,
  ⟨448, 4096, 32⟩,
  ⟨512, 4096, 32⟩,
  ⟨576, 8192, 32⟩,
  ⟨640, 8192, 32⟩,
  ⟨704, 8192, 32⟩,
  ⟨768, 8192, 32⟩,
  ⟨896, 8192, 32⟩,
  ⟨1024, 8192, 32⟩,
  ⟨1152, 12288, 32⟩,
  ⟨1280, 12288, 32⟩,
  ⟨1536, 12288, 32⟩,
  ⟨1792, 16384, 32⟩,
  ⟨2048, 16384, 32⟩,
  ⟨2304, 16384, 28⟩,
  ⟨2688, 16384, 24⟩,
  ⟨3200, 16384, 20⟩,
  ⟨3584, 28672, 18⟩,
  ⟨4096, 16384, 16⟩,
  ⟨4736, 20480, 13⟩,
  ⟨5376, 16384, 12⟩,
  ⟨6144, 12288, 10⟩,
  ⟨7168, 28672, 9⟩,
  ⟨8192, 16384, 8⟩]

/-- experimental_pow2_size_class.cc:57-77, default new alignment <= 8, page shift 13. -/
def pow2_a8_p13 : List Info := [
  ⟨0, 0, 0⟩,
  ⟨8, 8192, 32⟩,
  ⟨16, 8192, 32⟩,
  ⟨32, 8192, 32⟩,
  ⟨64, 8192, 32⟩,
  ⟨128, 8192, 32⟩,
  ⟨256, 8192, 32⟩,
  ⟨512, 8192, 32⟩,
  ⟨1024, 8192, 32⟩,
  ⟨2048, 8192, 32⟩,
  ⟨4096, 8192, 16⟩,
  ⟨8192, 8192, 8⟩,
  ⟨16384, 16384, 4⟩,
  ⟨32768, 32768, 2⟩,
  ⟨65536, 65536, 2⟩,
  ⟨131072, 131072, 2⟩,
  ⟨262144, 262144, 2⟩]

/-- experimental_pow2_size_class.cc:87-107, default new alignment <= 8, page shift 15. -/
def pow2_a8_p15 : List Info := [
  ⟨0, 0, 0⟩,
  ⟨8, 32768, 32⟩,
  ⟨16, 32768, 32⟩,
  ⟨32, 32768, 32⟩,
  ⟨64, 32768, 32⟩,
  ⟨128, 32768, 32⟩,
  ⟨256, 32768, 32⟩,
  ⟨512, 32768, 32⟩,
  ⟨1024, 32768, 32⟩,
  ⟨2048, 32768, 32⟩,
  ⟨4096, 32768, 16⟩,
  ⟨8192, 32768, 8⟩,
  ⟨16384, 32768, 4⟩,
  ⟨32768, 32768, 2⟩,
  ⟨65536, 65536, 2⟩,
  ⟨131072, 131072, 2⟩,
  ⟨262144, 262144, 2⟩]

/-- experimental_pow2_size_class.cc:117-137, default new alignment <= 8, page shift 18. -/
def pow2_a8_p18 : List Info := [
  ⟨0, 0, 0⟩,
  ⟨8, 262144, 32⟩,
  ⟨16, 262144, 32⟩,
  ⟨32, 262144, 32⟩,
  ⟨64, 262144, 32⟩,
  ⟨128, 262144, 32⟩,
  ⟨256, 262144, 32⟩,
  ⟨512, 262144, 32⟩,
  ⟨1024, 262144, 32⟩,
  ⟨2048, 262144, 32⟩,
  ⟨4096, 262144, 16⟩,
  ⟨8192, 262144, 8⟩,
  ⟨16384, 262144, 4⟩,
  ⟨32768, 262144, 2⟩,
  ⟨65536, 262144, 2⟩,
  ⟨131072, 262144, 2⟩,
  ⟨262144, 262144, 2⟩]

/-- experimental_pow2_size_class.cc:147-162, default new alignment <= 8, page shift 12. -/
def pow2_a8_p12 : List Info := [
  ⟨0, 0, 0⟩,
  ⟨8, 4096, 32⟩,
  ⟨16, 4096, 32⟩,
  ⟨32, 4096, 32⟩,
  ⟨64, 4096, 32⟩,
  ⟨128, 4096, 32⟩,
  ⟨256, 4096, 32⟩,
  ⟨512, 4096, 32⟩,
  ⟨1024, 8192, 32⟩,
  ⟨2048, 16384, 32⟩,
  ⟨4096, 16384, 16⟩,
  ⟨8192, 16384, 8⟩]

/-- experimental_pow2_size_class.cc:176-196, default new alignment > 8, page shift 13. -/
def pow2_a16_p13 : List Info := [
  ⟨0, 0, 0⟩,
  ⟨8, 8192, 32⟩,
  ⟨16, 8192, 32⟩,
  ⟨32, 8192, 32⟩,
  ⟨64, 8192, 32⟩,
  ⟨128, 8192, 32⟩,
  ⟨256, 8192, 32⟩,
  ⟨512, 8192, 32⟩,
  ⟨1024, 8192, 32⟩,
  ⟨2048, 8192, 32⟩,
  ⟨4096, 8192, 16⟩,
  ⟨8192, 8192, 8⟩,
  ⟨16384, 16384, 4⟩,
  ⟨32768, 32768, 2⟩,
  ⟨65536, 65536, 2⟩,
  ⟨131072, 131072, 2⟩,
  ⟨262144, 262144, 2⟩]

/-- experimental_pow2_size_class.cc:206-226, default new alignment > 8, page shift 15. -/
def pow2_a16_p15 : List Info := [
  ⟨0, 0, 0⟩,
  ⟨8, 32768, 32⟩,
  ⟨16, 32768, 32⟩,
  ⟨32, 32768, 32⟩,
  ⟨64, 32768, 32⟩,
  ⟨128, 32768, 32⟩,
  ⟨256, 32768, 32⟩,
  ⟨512, 32768, 32⟩,
  ⟨1024, 32768, 32⟩,
  ⟨2048, 32768, 32⟩,
  ⟨4096, 32768, 16⟩,
  ⟨8192, 32768, 8⟩,
  ⟨16384, 32768, 4⟩,
  ⟨32768, 32768, 2⟩,
  ⟨65536, 65536, 2⟩,
  ⟨131072, 131072, 2⟩,
  ⟨262144, 262144, 2⟩]

/-- experimental_pow2_size_class.cc:236-256, default new alignment > 8, page shift 18. -/
def pow2_a16_p18 : List Info := [
  ⟨0, 0, 0⟩,
  ⟨8, 262144, 32⟩,
  ⟨16, 262144, 32⟩,
  ⟨32, 262144, 32⟩,
  ⟨64, 262144, 32⟩,
  ⟨128, 262144, 32⟩,
  ⟨256, 262144, 32⟩,
  ⟨512, 262144, 32⟩,
  ⟨1024, 262144, 32⟩,
  ⟨2048, 262144, 32⟩,
  ⟨4096, 262144, 16⟩,
  ⟨8192, 262144, 8⟩,
  ⟨16384, 262144, 4⟩,
  ⟨32768, 262144, 2⟩,
  ⟨65536, 262144, 2⟩,
  ⟨131072, 262144, 2⟩,
  ⟨262144, 262144, 2⟩]

/-- experimental_pow2_size_class.cc:266-281, default new alignment > 8, page shift 12. -/
def pow2_a16_p12 : List Info := [
  ⟨0, 0, 0⟩,
  ⟨8, 4096, 32⟩,
  ⟨16, 4096, 32⟩,
  ⟨32, 4096, 32⟩,
  ⟨64, 4096, 32⟩,
  ⟨128, 4096, 32⟩,
  ⟨256, 4096, 32⟩,
  ⟨512, 4096, 32⟩,
  ⟨1024, 8192, 32⟩,
  ⟨2048, 16384, 32⟩,
  ⟨4096, 16384, 16⟩,
  ⟨8192, 16384, 8⟩]

/-- reuse_relaxed_below_64_size_classes.cc:57-110, default new alignment <= 8, page shift 13. -/
def relaxed_a8_p13 : List Info := [
  ⟨0, 0, 0⟩,
  ⟨8, 8192, 32⟩,
  ⟨16, 8192, 32⟩,
  ⟨24, 8192, 32⟩,
  ⟨32, 8192, 32⟩,
  ⟨48, 8192, 32⟩,
  ⟨64, 8192, 32⟩,
  ⟨80, 8192, 32⟩,
  ⟨96, 8192, 32⟩,
  ⟨112, 8192, 32⟩,
  ⟨128, 8192, 32⟩,
  ⟨160, 8192, 32⟩,
  ⟨184, 8192, 32⟩,
  ⟨208, 8192, 32⟩,
  ⟨256, 8192, 32⟩,
  ⟨312, 8192, 32⟩,
  ⟨368, 8192, 32⟩,
  ⟨448, 8192, 32⟩,
  ⟨512, 8192, 32⟩,
  ⟨576, 8192, 32⟩,
  ⟨704, 8192, 32⟩,
  ⟨896, 8192, 32⟩,
  ⟨1024, 8192, 32⟩,
  ⟨1152, 16384, 32⟩,
  ⟨1408, 16384, 32⟩,
  ⟨1792, 16384, 32⟩,
  ⟨2048, 8192, 32⟩,
  ⟨2304, 16384, 28⟩,
  ⟨2688, 16384, 24⟩,
  ⟨3456, 24576, 18⟩,
  ⟨4096, 8192, 16⟩,
  ⟨4736, 24576, 13⟩,
  ⟨6144, 24576, 10⟩,
  ⟨8192, 8192, 8⟩,
  ⟨9472, 40960, 6⟩,
  ⟨12288, 24576, 5⟩,
  ⟨16384, 16384, 4⟩,
  ⟨20480, 40960, 3⟩,
  ⟨28672, 57344, 2⟩,
  ⟨32768, 32768, 2⟩,
  ⟨40960, 40960, 2⟩,
  ⟨49152, 49152, 2⟩,
  ⟨65536, 65536, 2⟩,
  ⟨73728, 73728, 2⟩,
  ⟨81920, 81920, 2⟩,
  ⟨98304, 98304, 2⟩,
  ⟨131072, 131072, 2⟩,
  ⟨155648, 155648, 2⟩,
  ⟨204800, 204800, 2⟩,
  ⟨262144, 262144, 2⟩]

/-- reuse_relaxed_below_64_size_classes.cc:120-171, default new alignment <= 8, page shift 15. -/
def relaxed_a8_p15 : List Info := [
  ⟨0, 0, 0⟩,
  ⟨8, 32768, 32⟩,
  ⟨16, 32768, 32⟩,
  ⟨24, 32768, 32⟩,
  ⟨32, 32768, 32⟩,
  ⟨48, 32768, 32⟩,
  ⟨64, 32768, 32⟩,
  ⟨80, 32768, 32⟩,
  ⟨88, 32768, 32⟩,
  ⟨112, 32768, 32⟩,
  ⟨128, 32768, 32⟩,
  ⟨160, 32768, 32⟩,
  ⟨200, 32768, 32⟩,
  ⟨256, 32768, 32⟩,
  ⟨312, 32768, 32⟩,
  ⟨376, 32768, 32⟩,
  ⟨448, 32768, 32⟩,
  ⟨512, 32768, 32⟩,
  ⟨640, 32768, 32⟩,
  ⟨832, 32768, 32⟩,
  ⟨1024, 32768, 32⟩,
  ⟨1152, 32768, 32⟩,
  ⟨1280, 32768, 32⟩,
  ⟨1536, 32768, 32⟩,
  ⟨2048, 32768, 32⟩,
  ⟨2304, 32768, 28⟩,
  ⟨2688, 32768, 24⟩,
  ⟨3200, 32768, 20⟩,
  ⟨4096, 32768, 16⟩,
  ⟨4608, 32768, 14⟩,
  ⟨5376, 32768, 12⟩,
  ⟨6528, 32768, 10⟩,
  ⟨8192, 32768, 8⟩,
  ⟨9344, 65536, 7⟩,
  ⟨13056, 65536, 5⟩,
  ⟨16384, 32768, 4⟩,
  ⟨21760, 65536, 3⟩,
  ⟨28032, 196608, 2⟩,
  ⟨32768, 32768, 2⟩,
  ⟨40960, 131072, 2⟩,
  ⟨54528, 163840, 2⟩,
  ⟨65536, 65536, 2⟩,
  ⟨81920, 163840, 2⟩,
  ⟨114688, 229376, 2⟩,
  ⟨131072, 131072, 2⟩,
  ⟨163840, 163840, 2⟩,
  ⟨229376, 229376, 2⟩,
  ⟨262144, 262144, 2⟩]

/-- reuse_relaxed_below_64_size_classes.cc:181-235, default new alignment <= 8, page shift 18. -/
def relaxed_a8_p18 : List Info := [
  ⟨0, 0, 0⟩,
  ⟨8, 262144, 32⟩,
  ⟨16, 262144, 32⟩,
  ⟨24, 262144, 32⟩,
  ⟨32, 262144, 32⟩,
  ⟨48, 262144, 32⟩,
  ⟨64, 262144, 32⟩,
  ⟨80, 262144, 32⟩,
  ⟨96, 262144, 32⟩,
  ⟨112, 262144, 32⟩,
  ⟨128, 262144, 32⟩,
  ⟨152, 262144, 32⟩,
  ⟨192, 262144, 32⟩,
  ⟨256, 262144, 32⟩,
  ⟨304, 262144, 32⟩,
  ⟨384, 262144, 32⟩,
  ⟨448, 262144, 32⟩,
  ⟨512, 262144, 32⟩,
  ⟨640, 262144, 32⟩,
  ⟨768, 262144, 32⟩,
  ⟨832, 262144, 32⟩,
  ⟨1024, 262144, 32⟩,
  ⟨1280, 262144, 32⟩,
  ⟨1664, 262144, 32⟩,
  ⟨2048, 262144, 32⟩,
  ⟨2560, 262144, 25⟩,
  ⟨3200, 262144, 20⟩,
  ⟨4096, 262144, 16⟩,
  ⟨4480, 262144, 14⟩,
  ⟨5120, 262144, 12⟩,
  ⟨6528, 262144, 10⟩,
  ⟨8192, 262144, 8⟩,
  ⟨9600, 262144, 6⟩,
  ⟨11392, 262144, 5⟩,
  ⟨13056, 262144, 5⟩,
  ⟨16384, 262144, 4⟩,
  ⟨21760, 262144, 3⟩,
  ⟨26112, 262144, 2⟩,
  ⟨29056, 262144, 2⟩,
  ⟨32768, 262144, 2⟩,
  ⟨37376, 262144, 2⟩,
  ⟨43648, 262144, 2⟩,
  ⟨52352, 262144, 2⟩,
  ⟨65536, 262144, 2⟩,
  ⟨74880, 524288, 2⟩,
  ⟨87296, 262144, 2⟩,
  ⟨104832, 524288, 2⟩,
  ⟨131072, 262144, 2⟩,
  ⟨174720, 524288, 2⟩,
  ⟨209664, 1048576, 2⟩,
  ⟨262144, 262144, 2⟩]

/-- reuse_relaxed_below_64_size_classes.cc:245-274, default new alignment <= 8, page shift 12. -/
def relaxed_a8_p12 : List Info := [
  ⟨0, 0, 0⟩,
  ⟨8, 4096, 32⟩,
  ⟨16, 4096, 32⟩,
  ⟨24, 4096, 32⟩,
  ⟨32, 4096, 32⟩,
  ⟨48, 4096, 32⟩,
  ⟨64, 4096, 32⟩,
  ⟨80, 4096, 32⟩,
  ⟨96, 4096, 32⟩,
  ⟨128, 4096, 32⟩,
  ⟨160, 4096, 32⟩,
  ⟨224, 4096, 32⟩,
  ⟨256, 4096, 32⟩,
  ⟨288, 4096, 32⟩,
  ⟨368, 4096, 32⟩,
  ⟨512, 4096, 32⟩,
  ⟨576, 8192, 32⟩,
  ⟨768, 8192, 32⟩,
  ⟨1024, 8192, 32⟩,
  ⟨1536, 12288, 32⟩,
  ⟨2048, 16384, 32⟩,
  ⟨2688, 16384, 24⟩,
  ⟨4096, 16384, 16⟩,
  ⟨4736, 20480, 13⟩,
  ⟨6144, 12288, 10⟩,
  ⟨8192, 16384, 8⟩]

/-- reuse_relaxed_below_64_size_classes.cc:288-340, default new alignment > 8, page shift 13. -/
def relaxed_a16_p13 : List Info := [
  ⟨0, 0, 0⟩,
  ⟨8, 8192, 32⟩,
  ⟨16, 8192, 32⟩,
  ⟨32, 8192, 32⟩,
  ⟨48, 8192, 32⟩,
  ⟨64, 8192, 32⟩,
  ⟨80, 8192, 32⟩,
  ⟨96, 8192, 32⟩,
  ⟨112, 8192, 32⟩,
  ⟨128, 8192, 32⟩,
  ⟨160, 8192, 32⟩,
  ⟨176, 8192, 32⟩,
  ⟨208, 8192, 32⟩,
  ⟨256, 8192, 32⟩,
  ⟨304, 8192, 32⟩,
  ⟨368, 8192, 32⟩,
  ⟨448, 8192, 32⟩,
  ⟨512, 8192, 32⟩,
  ⟨576, 8192, 32⟩,
  ⟨704, 8192, 32⟩,
  ⟨896, 8192, 32⟩,
  ⟨1024, 8192, 32⟩,
  ⟨1152, 16384, 32⟩,
  ⟨1408, 16384, 32⟩,
  ⟨1792, 16384, 32⟩,
  ⟨2048, 8192, 32⟩,
  ⟨2304, 16384, 28⟩,
  ⟨2688, 16384, 24⟩,
  ⟨3456, 24576, 18⟩,
  ⟨4096, 8192, 16⟩,
  ⟨4736, 24576, 13⟩,
  ⟨6144, 24576, 10⟩,
  ⟨8192, 8192, 8⟩,
  ⟨9472, 40960, 6⟩,
  ⟨12288, 24576, 5⟩,
  ⟨16384, 16384, 4⟩,
  ⟨20480, 40960, 3⟩,
  ⟨28672, 57344, 2⟩,
  ⟨32768, 32768, 2⟩,
  ⟨40960, 40960, 2⟩,
  ⟨49152, 49152, 2⟩,
  ⟨65536, 65536, 2⟩,
  ⟨73728, 73728, 2⟩,
  ⟨81920, 81920, 2⟩,
  ⟨98304, 98304, 2⟩,
  ⟨131072, 131072, 2⟩,
  ⟨155648, 155648, 2⟩,
  ⟨204800, 204800, 2⟩,
  ⟨262144, 262144, 2⟩]

/-- reuse_relaxed_below_64_size_classes.cc:350-401, default new alignment > 8, page shift 15. -/
def relaxed_a16_p15 : List Info := [
  ⟨0, 0, 0⟩,
  ⟨8, 32768, 32⟩,
  ⟨16, 32768, 32⟩,
  ⟨32, 32768, 32⟩,
  ⟨48, 32768, 32⟩,
  ⟨64, 32768, 32⟩,
  ⟨80, 32768, 32⟩,
  ⟨96, 32768, 32⟩,
  ⟨112, 32768, 32⟩,
  ⟨128, 32768, 32⟩,
  ⟨160, 32768, 32⟩,
  ⟨192, 32768, 32⟩,
  ⟨256, 32768, 32⟩,
  ⟨320, 32768, 32⟩,
  ⟨384, 32768, 32⟩,
  ⟨448, 32768, 32⟩,
  ⟨512, 32768, 32⟩,
  ⟨640, 32768, 32⟩,
  ⟨832, 32768, 32⟩,
  ⟨1024, 32768, 32⟩,
  ⟨1152, 32768, 32⟩,
  ⟨1280, 32768, 32⟩,
  ⟨1536, 32768, 32⟩,
  ⟨2048, 32768, 32⟩,
  ⟨2304, 32768, 28⟩,
  ⟨2688, 32768, 24⟩,
  ⟨3200, 32768, 20⟩,
  ⟨4096, 32768, 16⟩,
  ⟨4608, 32768, 14⟩,
  ⟨5376, 32768, 12⟩,
  ⟨6528, 32768, 10⟩,
  ⟨8192, 32768, 8⟩,
  ⟨9344, 65536, 7⟩,
  ⟨13056, 65536, 5⟩,
  ⟨16384, 32768, 4⟩,
  ⟨21760, 65536, 3⟩,
  ⟨28032, 196608, 2⟩,
  ⟨32768, 32768, 2⟩,
  ⟨38144, 163840, 2⟩,
  ⟨49152, 98304, 2⟩,
  ⟨57344, 229376, 2⟩,
  ⟨65536, 65536, 2⟩,
  ⟨81920, 163840, 2⟩,
  ⟨114688, 229376, 2⟩,
  ⟨131072, 131072, 2⟩,
  ⟨163840, 163840, 2⟩,
  ⟨229376, 229376, 2⟩,
  ⟨262144, 262144, 2⟩]

/-- reuse_relaxed_below_64_size_classes.cc:411-465, default new alignment > 8, page shift 18. -/
def relaxed_a16_p18 : List Info := [
  ⟨0, 0, 0⟩,
  ⟨8, 262144, 32⟩,
  ⟨16, 262144, 32⟩,
  ⟨32, 262144, 32⟩,
  ⟨48, 262144, 32⟩,
  ⟨64, 262144, 32⟩,
  ⟨80, 262144, 32⟩,
  ⟨96, 262144, 32⟩,
  ⟨112, 262144, 32⟩,
  ⟨128, 262144, 32⟩,
  ⟨160, 262144, 32⟩,
  ⟨192, 262144, 32⟩,
  ⟨256, 262144, 32⟩,
  ⟨304, 262144, 32⟩,
  ⟨384, 262144, 32⟩,
  ⟨448, 262144, 32⟩,
  ⟨512, 262144, 32⟩,
  ⟨640, 262144, 32⟩,
  ⟨768, 262144, 32⟩,
  ⟨832, 262144, 32⟩,
  ⟨1024, 262144, 32⟩,
  ⟨1280, 262144, 32⟩,
  ⟨1664, 262144, 32⟩,
  ⟨2048, 262144, 32⟩,
  ⟨2560, 262144, 25⟩,
  ⟨3200, 262144, 20⟩,
  ⟨4096, 262144, 16⟩,
  ⟨4480, 262144, 14⟩,
  ⟨5120, 262144, 12⟩,
  ⟨6528, 262144, 10⟩,
  ⟨8192, 262144, 8⟩,
  ⟨9600, 262144, 6⟩,
  ⟨11392, 262144, 5⟩,
  ⟨13056, 262144, 5⟩,
  ⟨16384, 262144, 4⟩,
  ⟨21760, 262144, 3⟩,
  ⟨26112, 262144, 2⟩,
  ⟨29056, 262144, 2⟩,
  ⟨32768, 262144, 2⟩,
  ⟨37376, 262144, 2⟩,
  ⟨43648, 262144, 2⟩,
  ⟨52352, 262144, 2⟩,
  ⟨65536, 262144, 2⟩,
  ⟨74880, 524288, 2⟩,
  ⟨87296, 262144, 2⟩,
  ⟨104832, 524288, 2⟩,
  ⟨131072, 262144, 2⟩,
  ⟨149760, 786432, 2⟩,
  ⟨174720, 524288, 2⟩,
  ⟨209664, 1048576, 2⟩,
  ⟨262144, 262144, 2⟩]

/-- reuse_relaxed_below_64_size_classes.cc:475-504, default new alignment > 8, page shift 12. -/
def relaxed_a16_p12 : List Info := [
  ⟨0, 0, 0⟩,
  ⟨8, 4096, 32⟩,
  ⟨16, 4096, 32⟩,
  ⟨32, 4096, 32⟩,
  ⟨48, 4096, 32⟩,
  ⟨64, 4096, 32⟩,
  ⟨80, 4096, 32⟩,
  ⟨96, 4096, 32⟩,
  ⟨128, 4096, 32⟩,
  ⟨144, 4096, 32⟩,
  ⟨160, 4096, 32⟩,
  ⟨224, 4096, 32⟩,
  ⟨256, 4096, 32⟩,
  ⟨288, 4096, 32⟩,
  ⟨368, 4096, 32⟩,
  ⟨512, 4096, 32⟩,
  ⟨576, 8192, 32⟩,
  ⟨768, 8192, 32⟩,
  ⟨1024, 8192, 32⟩,
  ⟨1536, 12288, 32⟩,
  ⟨2048, 16384, 32⟩,
  ⟨2688, 16384, 24⟩,
  ⟨4096, 16384, 16⟩,
  ⟨4736, 20480, 13⟩,
  ⟨6144, 12288, 10⟩,
  ⟨8192, 16384, 8⟩]

/-- All shipped tables with the page shift they are compiled for. -/
def shippedTables : List (Nat × List Info) := [
  (13, reuse_a8_p13),
  (15, reuse_a8_p15),
  (18, reuse_a8_p18),
  (12, reuse_a8_p12),
  (13, reuse_a16_p13),
  (15, reuse_a16_p15),
  (18, reuse_a16_p18),
  (12, reuse_a16_p12),
  (13, legacy_a8_p13),
  (15, legacy_a8_p15),
  (18, legacy_a8_p18),
  (12, legacy_a8_p12),
  (13, legacy_a16_p13),
  (15, legacy_a16_p15),
  (18, legacy_a16_p18),
  (12, legacy_a16_p12),
  (13, pow2_a8_p13),
  (15, pow2_a8_p15),
  (18, pow2_a8_p18),
  (12, pow2_a8_p12),
  (13, pow2_a16_p13),
  (15, pow2_a16_p15),
  (18, pow2_a16_p18),
  (12, pow2_a16_p12),
  (13, relaxed_a8_p13),
  (15, relaxed_a8_p15),
  (18, relaxed_a8_p18),
  (12, relaxed_a8_p12),
  (13, relaxed_a16_p13),
  (15, relaxed_a16_p15),
  (18, relaxed_a16_p18),
  (12, relaxed_a16_p12)]

end Verif.SizeMap
