/-
The tables of babel/axl_babel_iso8859*.c, taken from the assignments in those files.

Entry `i` is `table[i].buffer[0 .. table[i].size)`.
-/
namespace Axl
namespace Babel

/-- `axl_babel_build_iso88591_table` (babel/axl_babel_iso88591.c:13-1174). -/
def iso8859_1 : List (List UInt8) := [
  [0], [1], [2], [3], [4], [5], [6], [7],
  [8], [9], [10], [11], [12], [13], [14], [15],
  [16], [17], [18], [19], [20], [21], [22], [23],
  [24], [25], [26], [27], [28], [29], [30], [31],
  [32], [33], [34], [35], [36], [37], [38], [39],
  [40], [41], [42], [43], [44], [45], [46], [47],
  [48], [49], [50], [51], [52], [53], [54], [55],
  [56], [57], [58], [59], [60], [61], [62], [63],
  [64], [65], [66], [67], [68], [69], [70], [71],
  [72], [73], [74], [75], [76], [77], [78], [79],
  [80], [81], [82], [83], [84], [85], [86], [87],
  [88], [89], [90], [91], [92], [93], [94], [95],
  [96], [97], [98], [99], [100], [101], [102], [103],
  [104], [105], [106], [107], [108], [109], [110], [111],
  [112], [113], [114], [115], [116], [117], [118], [119],
  [120], [121], [122], [123], [124], [125], [126], [127],
  [194, 128], [194, 129], [194, 130], [194, 131], [194, 132], [194, 133], [194, 134], [194, 135],
  [194, 136], [194, 137], [194, 138], [194, 139], [194, 140], [194, 141], [194, 142], [194, 143],
  [194, 144], [194, 145], [194, 146], [194, 147], [194, 148], [194, 149], [194, 150], [194, 151],
  [194, 152], [194, 153], [194, 154], [194, 155], [194, 156], [194, 157], [194, 158], [194, 159],
  [194, 160], [194, 161], [194, 162], [194, 163], [194, 164], [194, 165], [194, 166], [194, 167],
  [194, 168], [194, 169], [194, 170], [194, 171], [194, 172], [194, 173], [194, 174], [194, 175],
  [194, 176], [194, 177], [194, 178], [194, 179], [194, 180], [194, 181], [194, 182], [194, 183],
  [194, 184], [194, 185], [194, 186], [194, 187], [194, 188], [194, 189], [194, 190], [194, 191],
  [195, 128], [195, 129], [195, 130], [195, 131], [195, 132], [195, 133], [195, 134], [195, 135],
  [195, 136], [195, 137], [195, 138], [195, 139], [195, 140], [195, 141], [195, 142], [195, 143],
  [195, 144], [195, 145], [195, 146], [195, 147], [195, 148], [195, 149], [195, 150], [195, 151],
  [195, 152], [195, 153], [195, 154], [195, 155], [195, 156], [195, 157], [195, 158], [195, 159],
  [195, 160], [195, 161], [195, 162], [195, 163], [195, 164], [195, 165], [195, 166], [195, 167],
  [195, 168], [195, 169], [195, 170], [195, 171], [195, 172], [195, 173], [195, 174], [195, 175],
  [195, 176], [195, 177], [195, 178], [195, 179], [195, 180], [195, 181], [195, 182], [195, 183],
  [195, 184], [195, 185], [195, 186], [195, 187], [195, 188], [195, 189], [195, 190], [195, 191]
]

/-- `axl_babel_build_iso88592_table` (babel/axl_babel_iso88592.c:13-1174). -/
def iso8859_2 : List (List UInt8) := [
  [0], [1], [2], [3], [4], [5], [6], [7],
  [8], [9], [10], [11], [12], [13], [14], [15],
  [16], [17], [18], [19], [20], [21], [22], [23],
  [24], [25], [26], [27], [28], [29], [30], [31],
  [32], [33], [34], [35], [36], [37], [38], [39],
  [40], [41], [42], [43], [44], [45], [46], [47],
  [48], [49], [50], [51], [52], [53], [54], [55],
  [56], [57], [58], [59], [60], [61], [62], [63],
  [64], [65], [66], [67], [68], [69], [70], [71],
  [72], [73], [74], [75], [76], [77], [78], [79],
  [80], [81], [82], [83], [84], [85], [86], [87],
  [88], [89], [90], [91], [92], [93], [94], [95],
  [96], [97], [98], [99], [100], [101], [102], [103],
  [104], [105], [106], [107], [108], [109], [110], [111],
  [112], [113], [114], [115], [116], [117], [118], [119],
  [120], [121], [122], [123], [124], [125], [126], [127],
  [194, 128], [194, 129], [194, 130], [194, 131], [194, 132], [194, 133], [194, 134], [194, 135],
  [194, 136], [194, 137], [194, 138], [194, 139], [194, 140], [194, 141], [194, 142], [194, 143],
  [194, 144], [194, 145], [194, 146], [194, 147], [194, 148], [194, 149], [194, 150], [194, 151],
  [194, 152], [194, 153], [194, 154], [194, 155], [194, 156], [194, 157], [194, 158], [194, 159],
  [194, 160], [196, 132], [203, 152], [197, 129], [194, 164], [196, 189], [197, 154], [194, 167],
  [194, 168], [197, 160], [197, 158], [197, 164], [197, 185], [194, 173], [197, 189], [197, 187],
  [194, 176], [196, 133], [203, 155], [197, 130], [194, 180], [196, 190], [197, 155], [203, 135],
  [194, 184], [197, 161], [197, 159], [197, 165], [197, 186], [203, 157], [197, 190], [197, 188],
  [197, 148], [195, 129], [195, 130], [196, 130], [195, 132], [196, 185], [196, 134], [195, 135],
  [196, 140], [195, 137], [196, 152], [195, 139], [196, 154], [195, 141], [195, 142], [196, 142],
  [196, 144], [197, 131], [197, 135], [195, 147], [195, 148], [197, 144], [195, 150], [195, 151],
  [197, 152], [197, 174], [195, 154], [197, 176], [195, 156], [195, 157], [197, 162], [195, 159],
  [197, 149], [195, 161], [195, 162], [196, 131], [195, 164], [196, 186], [196, 135], [195, 167],
  [196, 141], [195, 169], [196, 153], [195, 171], [196, 155], [195, 173], [195, 174], [196, 143],
  [196, 145], [197, 132], [197, 136], [195, 179], [195, 180], [197, 145], [195, 182], [195, 183],
  [197, 153], [197, 175], [195, 186], [197, 177], [195, 188], [195, 189], [197, 163], [203, 153]
]

/-- `axl_babel_build_iso88593_table` (babel/axl_babel_iso88593.c:13-1167). -/
def iso8859_3 : List (List UInt8) := [
  [0], [1], [2], [3], [4], [5], [6], [7],
  [8], [9], [10], [11], [12], [13], [14], [15],
  [16], [17], [18], [19], [20], [21], [22], [23],
  [24], [25], [26], [27], [28], [29], [30], [31],
  [32], [33], [34], [35], [36], [37], [38], [39],
  [40], [41], [42], [43], [44], [45], [46], [47],
  [48], [49], [50], [51], [52], [53], [54], [55],
  [56], [57], [58], [59], [60], [61], [62], [63],
  [64], [65], [66], [67], [68], [69], [70], [71],
  [72], [73], [74], [75], [76], [77], [78], [79],
  [80], [81], [82], [83], [84], [85], [86], [87],
  [88], [89], [90], [91], [92], [93], [94], [95],
  [96], [97], [98], [99], [100], [101], [102], [103],
  [104], [105], [106], [107], [108], [109], [110], [111],
  [112], [113], [114], [115], [116], [117], [118], [119],
  [120], [121], [122], [123], [124], [125], [126], [127],
  [194, 128], [194, 129], [194, 130], [194, 131], [194, 132], [194, 133], [194, 134], [194, 135],
  [194, 136], [194, 137], [194, 138], [194, 139], [194, 140], [194, 141], [194, 142], [194, 143],
  [194, 144], [194, 145], [194, 146], [194, 147], [194, 148], [194, 149], [194, 150], [194, 151],
  [194, 152], [194, 153], [194, 154], [194, 155], [194, 156], [194, 157], [194, 158], [194, 159],
  [194, 160], [196, 166], [203, 152], [194, 163], [194, 164], [0], [196, 164], [194, 167],
  [194, 168], [196, 176], [197, 158], [196, 158], [196, 180], [194, 173], [0], [197, 187],
  [194, 176], [196, 167], [194, 178], [194, 179], [194, 180], [194, 181], [196, 165], [194, 183],
  [194, 184], [196, 177], [197, 159], [196, 159], [196, 181], [194, 189], [0], [197, 188],
  [195, 128], [195, 129], [195, 130], [0], [195, 132], [196, 138], [196, 136], [195, 135],
  [195, 136], [195, 137], [195, 138], [195, 139], [195, 140], [195, 141], [195, 142], [195, 143],
  [0], [195, 145], [195, 146], [195, 147], [195, 148], [196, 160], [195, 150], [195, 151],
  [196, 156], [195, 153], [195, 154], [195, 155], [195, 156], [197, 172], [197, 156], [195, 159],
  [195, 160], [195, 161], [195, 162], [0], [195, 164], [196, 139], [196, 137], [195, 167],
  [195, 168], [195, 169], [195, 170], [195, 171], [195, 172], [195, 173], [195, 174], [195, 175],
  [0], [195, 177], [195, 178], [195, 179], [195, 180], [196, 161], [195, 182], [195, 183],
  [196, 157], [195, 185], [195, 186], [195, 187], [195, 188], [197, 173], [197, 157], [203, 153]
]

/-- `axl_babel_build_iso88594_table` (babel/axl_babel_iso88594.c:13-1174). -/
def iso8859_4 : List (List UInt8) := [
  [0], [1], [2], [3], [4], [5], [6], [7],
  [8], [9], [10], [11], [12], [13], [14], [15],
  [16], [17], [18], [19], [20], [21], [22], [23],
  [24], [25], [26], [27], [28], [29], [30], [31],
  [32], [33], [34], [35], [36], [37], [38], [39],
  [40], [41], [42], [43], [44], [45], [46], [47],
  [48], [49], [50], [51], [52], [53], [54], [55],
  [56], [57], [58], [59], [60], [61], [62], [63],
  [64], [65], [66], [67], [68], [69], [70], [71],
  [72], [73], [74], [75], [76], [77], [78], [79],
  [80], [81], [82], [83], [84], [85], [86], [87],
  [88], [89], [90], [91], [92], [93], [94], [95],
  [96], [97], [98], [99], [100], [101], [102], [103],
  [104], [105], [106], [107], [108], [109], [110], [111],
  [112], [113], [114], [115], [116], [117], [118], [119],
  [120], [121], [122], [123], [124], [125], [126], [127],
  [194, 128], [194, 129], [194, 130], [194, 131], [194, 132], [194, 133], [194, 134], [194, 135],
  [194, 136], [194, 137], [194, 138], [194, 139], [194, 140], [194, 141], [194, 142], [194, 143],
  [194, 144], [194, 145], [194, 146], [194, 147], [194, 148], [194, 149], [194, 150], [194, 151],
  [194, 152], [194, 153], [194, 154], [194, 155], [194, 156], [194, 157], [194, 158], [194, 159],
  [194, 160], [196, 132], [196, 184], [197, 150], [194, 164], [196, 168], [196, 187], [194, 167],
  [194, 168], [197, 160], [196, 146], [196, 162], [197, 166], [194, 173], [197, 189], [194, 175],
  [194, 176], [196, 133], [203, 155], [197, 151], [194, 180], [196, 169], [196, 188], [203, 135],
  [194, 184], [197, 161], [196, 147], [196, 163], [197, 167], [197, 138], [197, 190], [197, 139],
  [196, 128], [195, 129], [195, 130], [195, 131], [195, 132], [195, 133], [195, 134], [196, 174],
  [196, 140], [195, 137], [196, 152], [195, 139], [196, 150], [195, 141], [195, 142], [196, 170],
  [196, 144], [197, 133], [197, 140], [196, 182], [195, 148], [195, 149], [195, 150], [195, 151],
  [195, 152], [197, 178], [195, 154], [195, 155], [195, 156], [197, 168], [197, 170], [195, 159],
  [196, 129], [195, 161], [195, 162], [195, 163], [195, 164], [195, 165], [195, 166], [196, 175],
  [196, 141], [195, 169], [196, 153], [195, 171], [196, 151], [195, 173], [195, 174], [196, 171],
  [196, 145], [197, 134], [197, 141], [196, 183], [195, 180], [195, 181], [195, 182], [195, 183],
  [195, 184], [197, 179], [195, 186], [195, 187], [195, 188], [197, 169], [197, 171], [203, 153]
]

/-- `axl_babel_build_iso88595_table` (babel/axl_babel_iso88595.c:13-1175). -/
def iso8859_5 : List (List UInt8) := [
  [0], [1], [2], [3], [4], [5], [6], [7],
  [8], [9], [10], [11], [12], [13], [14], [15],
  [16], [17], [18], [19], [20], [21], [22], [23],
  [24], [25], [26], [27], [28], [29], [30], [31],
  [32], [33], [34], [35], [36], [37], [38], [39],
  [40], [41], [42], [43], [44], [45], [46], [47],
  [48], [49], [50], [51], [52], [53], [54], [55],
  [56], [57], [58], [59], [60], [61], [62], [63],
  [64], [65], [66], [67], [68], [69], [70], [71],
  [72], [73], [74], [75], [76], [77], [78], [79],
  [80], [81], [82], [83], [84], [85], [86], [87],
  [88], [89], [90], [91], [92], [93], [94], [95],
  [96], [97], [98], [99], [100], [101], [102], [103],
  [104], [105], [106], [107], [108], [109], [110], [111],
  [112], [113], [114], [115], [116], [117], [118], [119],
  [120], [121], [122], [123], [124], [125], [126], [127],
  [194, 128], [194, 129], [194, 130], [194, 131], [194, 132], [194, 133], [194, 134], [194, 135],
  [194, 136], [194, 137], [194, 138], [194, 139], [194, 140], [194, 141], [194, 142], [194, 143],
  [194, 144], [194, 145], [194, 146], [194, 147], [194, 148], [194, 149], [194, 150], [194, 151],
  [194, 152], [194, 153], [194, 154], [194, 155], [194, 156], [194, 157], [194, 158], [194, 159],
  [194, 160], [208, 129], [208, 130], [208, 131], [208, 132], [208, 133], [208, 134], [208, 135],
  [208, 136], [208, 137], [208, 138], [208, 139], [208, 140], [194, 173], [208, 142], [208, 143],
  [208, 144], [208, 145], [208, 146], [208, 147], [208, 148], [208, 149], [208, 150], [208, 151],
  [208, 152], [208, 153], [208, 154], [208, 155], [208, 156], [208, 157], [208, 158], [208, 159],
  [208, 160], [208, 161], [208, 162], [208, 163], [208, 164], [208, 165], [208, 166], [208, 167],
  [208, 168], [208, 169], [208, 170], [208, 171], [208, 172], [208, 173], [208, 174], [208, 175],
  [208, 176], [208, 177], [208, 178], [208, 179], [208, 180], [208, 181], [208, 182], [208, 183],
  [208, 184], [208, 185], [208, 186], [208, 187], [208, 188], [208, 189], [208, 190], [208, 191],
  [209, 128], [209, 129], [209, 130], [209, 131], [209, 132], [209, 133], [209, 134], [209, 135],
  [209, 136], [209, 137], [209, 138], [209, 139], [209, 140], [209, 141], [209, 142], [209, 143],
  [226, 132, 150], [209, 145], [209, 146], [209, 147], [209, 148], [209, 149], [209, 150], [209, 151],
  [209, 152], [209, 153], [209, 154], [209, 155], [209, 156], [194, 167], [209, 158], [209, 159]
]

/-- `axl_babel_build_iso88596_table` (babel/axl_babel_iso88596.c:13-1129). -/
def iso8859_6 : List (List UInt8) := [
  [0], [1], [2], [3], [4], [5], [6], [7],
  [8], [9], [10], [11], [12], [13], [14], [15],
  [16], [17], [18], [19], [20], [21], [22], [23],
  [24], [25], [26], [27], [28], [29], [30], [31],
  [32], [33], [34], [35], [36], [37], [38], [39],
  [40], [41], [42], [43], [44], [45], [46], [47],
  [48], [49], [50], [51], [52], [53], [54], [55],
  [56], [57], [58], [59], [60], [61], [62], [63],
  [64], [65], [66], [67], [68], [69], [70], [71],
  [72], [73], [74], [75], [76], [77], [78], [79],
  [80], [81], [82], [83], [84], [85], [86], [87],
  [88], [89], [90], [91], [92], [93], [94], [95],
  [96], [97], [98], [99], [100], [101], [102], [103],
  [104], [105], [106], [107], [108], [109], [110], [111],
  [112], [113], [114], [115], [116], [117], [118], [119],
  [120], [121], [122], [123], [124], [125], [126], [127],
  [194, 128], [194, 129], [194, 130], [194, 131], [194, 132], [194, 133], [194, 134], [194, 135],
  [194, 136], [194, 137], [194, 138], [194, 139], [194, 140], [194, 141], [194, 142], [194, 143],
  [194, 144], [194, 145], [194, 146], [194, 147], [194, 148], [194, 149], [194, 150], [194, 151],
  [194, 152], [194, 153], [194, 154], [194, 155], [194, 156], [194, 157], [194, 158], [194, 159],
  [194, 160], [0], [0], [0], [194, 164], [0], [0], [0],
  [0], [0], [0], [0], [216, 140], [194, 173], [0], [0],
  [0], [0], [0], [0], [0], [0], [0], [0],
  [0], [0], [0], [216, 155], [0], [0], [0], [216, 159],
  [0], [216, 161], [216, 162], [216, 163], [216, 164], [216, 165], [216, 166], [216, 167],
  [216, 168], [216, 169], [216, 170], [216, 171], [216, 172], [216, 173], [216, 174], [216, 175],
  [216, 176], [216, 177], [216, 178], [216, 179], [216, 180], [216, 181], [216, 182], [216, 183],
  [216, 184], [216, 185], [216, 186], [0], [0], [0], [0], [0],
  [217, 128], [217, 129], [217, 130], [217, 131], [217, 132], [217, 133], [217, 134], [217, 135],
  [217, 136], [217, 137], [217, 138], [217, 139], [217, 140], [217, 141], [217, 142], [217, 143],
  [217, 144], [217, 145], [217, 146], [0], [0], [0], [0], [0],
  [0], [0], [0], [0], [0], [0], [0], [0]
]

/-- `axl_babel_build_iso88597_table` (babel/axl_babel_iso88597.c:13-1176). -/
def iso8859_7 : List (List UInt8) := [
  [0], [1], [2], [3], [4], [5], [6], [7],
  [8], [9], [10], [11], [12], [13], [14], [15],
  [16], [17], [18], [19], [20], [21], [22], [23],
  [24], [25], [26], [27], [28], [29], [30], [31],
  [32], [33], [34], [35], [36], [37], [38], [39],
  [40], [41], [42], [43], [44], [45], [46], [47],
  [48], [49], [50], [51], [52], [53], [54], [55],
  [56], [57], [58], [59], [60], [61], [62], [63],
  [64], [65], [66], [67], [68], [69], [70], [71],
  [72], [73], [74], [75], [76], [77], [78], [79],
  [80], [81], [82], [83], [84], [85], [86], [87],
  [88], [89], [90], [91], [92], [93], [94], [95],
  [96], [97], [98], [99], [100], [101], [102], [103],
  [104], [105], [106], [107], [108], [109], [110], [111],
  [112], [113], [114], [115], [116], [117], [118], [119],
  [120], [121], [122], [123], [124], [125], [126], [127],
  [194, 128], [194, 129], [194, 130], [194, 131], [194, 132], [194, 133], [194, 134], [194, 135],
  [194, 136], [194, 137], [194, 138], [194, 139], [194, 140], [194, 141], [194, 142], [194, 143],
  [194, 144], [194, 145], [194, 146], [194, 147], [194, 148], [194, 149], [194, 150], [194, 151],
  [194, 152], [194, 153], [194, 154], [194, 155], [194, 156], [194, 157], [194, 158], [194, 159],
  [194, 160], [226, 128, 152], [226, 128, 153], [194, 163], [226, 130, 172], [226, 130, 175], [194, 166], [194, 167],
  [194, 168], [194, 169], [205, 186], [194, 171], [194, 172], [194, 173], [0], [226, 128, 149],
  [194, 176], [194, 177], [194, 178], [194, 179], [206, 132], [206, 133], [206, 134], [194, 183],
  [206, 136], [206, 137], [206, 138], [194, 187], [206, 140], [194, 189], [206, 142], [206, 143],
  [206, 144], [206, 145], [206, 146], [206, 147], [206, 148], [206, 149], [206, 150], [206, 151],
  [206, 152], [206, 153], [206, 154], [206, 155], [206, 156], [206, 157], [206, 158], [206, 159],
  [206, 160], [206, 161], [0], [206, 163], [206, 164], [206, 165], [206, 166], [206, 167],
  [206, 168], [206, 169], [206, 170], [206, 171], [206, 172], [206, 173], [206, 174], [206, 175],
  [206, 176], [206, 177], [206, 178], [206, 179], [206, 180], [206, 181], [206, 182], [206, 183],
  [206, 184], [206, 185], [206, 186], [206, 187], [206, 188], [206, 189], [206, 190], [206, 191],
  [207, 128], [207, 129], [207, 130], [207, 131], [207, 132], [207, 133], [207, 134], [207, 135],
  [207, 136], [207, 137], [207, 138], [207, 139], [207, 140], [207, 141], [207, 142], [0]
]

/-- `axl_babel_build_iso88598_table` (babel/axl_babel_iso88598.c:13-1141). -/
def iso8859_8 : List (List UInt8) := [
  [0], [1], [2], [3], [4], [5], [6], [7],
  [8], [9], [10], [11], [12], [13], [14], [15],
  [16], [17], [18], [19], [20], [21], [22], [23],
  [24], [25], [26], [27], [28], [29], [30], [31],
  [32], [33], [34], [35], [36], [37], [38], [39],
  [40], [41], [42], [43], [44], [45], [46], [47],
  [48], [49], [50], [51], [52], [53], [54], [55],
  [56], [57], [58], [59], [60], [61], [62], [63],
  [64], [65], [66], [67], [68], [69], [70], [71],
  [72], [73], [74], [75], [76], [77], [78], [79],
  [80], [81], [82], [83], [84], [85], [86], [87],
  [88], [89], [90], [91], [92], [93], [94], [95],
  [96], [97], [98], [99], [100], [101], [102], [103],
  [104], [105], [106], [107], [108], [109], [110], [111],
  [112], [113], [114], [115], [116], [117], [118], [119],
  [120], [121], [122], [123], [124], [125], [126], [127],
  [194, 128], [194, 129], [194, 130], [194, 131], [194, 132], [194, 133], [194, 134], [194, 135],
  [194, 136], [194, 137], [194, 138], [194, 139], [194, 140], [194, 141], [194, 142], [194, 143],
  [194, 144], [194, 145], [194, 146], [194, 147], [194, 148], [194, 149], [194, 150], [194, 151],
  [194, 152], [194, 153], [194, 154], [194, 155], [194, 156], [194, 157], [194, 158], [194, 159],
  [194, 160], [0], [194, 162], [194, 163], [194, 164], [194, 165], [194, 166], [194, 167],
  [194, 168], [194, 169], [195, 151], [194, 171], [194, 172], [194, 173], [194, 174], [194, 175],
  [194, 176], [194, 177], [194, 178], [194, 179], [194, 180], [194, 181], [194, 182], [194, 183],
  [194, 184], [194, 185], [195, 183], [194, 187], [194, 188], [194, 189], [194, 190], [0],
  [0], [0], [0], [0], [0], [0], [0], [0],
  [0], [0], [0], [0], [0], [0], [0], [0],
  [0], [0], [0], [0], [0], [0], [0], [0],
  [0], [0], [0], [0], [0], [0], [0], [226, 128, 151],
  [215, 144], [215, 145], [215, 146], [215, 147], [215, 148], [215, 149], [215, 150], [215, 151],
  [215, 152], [215, 153], [215, 154], [215, 155], [215, 156], [215, 157], [215, 158], [215, 159],
  [215, 160], [215, 161], [215, 162], [215, 163], [215, 164], [215, 165], [215, 166], [215, 167],
  [215, 168], [215, 169], [215, 170], [0], [0], [226, 128, 142], [226, 128, 143], [0]
]

/-- `axl_babel_build_iso88599_table` (babel/axl_babel_iso88599.c:13-1174). -/
def iso8859_9 : List (List UInt8) := [
  [0], [1], [2], [3], [4], [5], [6], [7],
  [8], [9], [10], [11], [12], [13], [14], [15],
  [16], [17], [18], [19], [20], [21], [22], [23],
  [24], [25], [26], [27], [28], [29], [30], [31],
  [32], [33], [34], [35], [36], [37], [38], [39],
  [40], [41], [42], [43], [44], [45], [46], [47],
  [48], [49], [50], [51], [52], [53], [54], [55],
  [56], [57], [58], [59], [60], [61], [62], [63],
  [64], [65], [66], [67], [68], [69], [70], [71],
  [72], [73], [74], [75], [76], [77], [78], [79],
  [80], [81], [82], [83], [84], [85], [86], [87],
  [88], [89], [90], [91], [92], [93], [94], [95],
  [96], [97], [98], [99], [100], [101], [102], [103],
  [104], [105], [106], [107], [108], [109], [110], [111],
  [112], [113], [114], [115], [116], [117], [118], [119],
  [120], [121], [122], [123], [124], [125], [126], [127],
  [194, 128], [194, 129], [194, 130], [194, 131], [194, 132], [194, 133], [194, 134], [194, 135],
  [194, 136], [194, 137], [194, 138], [194, 139], [194, 140], [194, 141], [194, 142], [194, 143],
  [194, 144], [194, 145], [194, 146], [194, 147], [194, 148], [194, 149], [194, 150], [194, 151],
  [194, 152], [194, 153], [194, 154], [194, 155], [194, 156], [194, 157], [194, 158], [194, 159],
  [194, 160], [194, 161], [194, 162], [194, 163], [194, 164], [194, 165], [194, 166], [194, 167],
  [194, 168], [194, 169], [194, 170], [194, 171], [194, 172], [194, 173], [194, 174], [194, 175],
  [194, 176], [194, 177], [194, 178], [194, 179], [194, 180], [194, 181], [194, 182], [194, 183],
  [194, 184], [194, 185], [194, 186], [194, 187], [194, 188], [194, 189], [194, 190], [194, 191],
  [195, 128], [195, 129], [195, 130], [195, 131], [195, 132], [195, 133], [195, 134], [195, 135],
  [195, 136], [195, 137], [195, 138], [195, 139], [195, 140], [195, 141], [195, 142], [195, 143],
  [196, 158], [195, 145], [195, 146], [195, 147], [195, 148], [195, 149], [195, 150], [195, 151],
  [195, 152], [195, 153], [195, 154], [195, 155], [195, 156], [196, 176], [197, 158], [195, 159],
  [195, 160], [195, 161], [195, 162], [195, 163], [195, 164], [195, 165], [195, 166], [195, 167],
  [195, 168], [195, 169], [195, 170], [195, 171], [195, 172], [195, 173], [195, 174], [195, 175],
  [196, 159], [195, 177], [195, 178], [195, 179], [195, 180], [195, 181], [195, 182], [195, 183],
  [195, 184], [195, 185], [195, 186], [195, 187], [195, 188], [196, 177], [197, 159], [195, 191]
]

/-- `axl_babel_build_iso885915_table` (babel/axl_babel_iso885915.c:13-1175). -/
def iso8859_15 : List (List UInt8) := [
  [0], [1], [2], [3], [4], [5], [6], [7],
  [8], [9], [10], [11], [12], [13], [14], [15],
  [16], [17], [18], [19], [20], [21], [22], [23],
  [24], [25], [26], [27], [28], [29], [30], [31],
  [32], [33], [34], [35], [36], [37], [38], [39],
  [40], [41], [42], [43], [44], [45], [46], [47],
  [48], [49], [50], [51], [52], [53], [54], [55],
  [56], [57], [58], [59], [60], [61], [62], [63],
  [64], [65], [66], [67], [68], [69], [70], [71],
  [72], [73], [74], [75], [76], [77], [78], [79],
  [80], [81], [82], [83], [84], [85], [86], [87],
  [88], [89], [90], [91], [92], [93], [94], [95],
  [96], [97], [98], [99], [100], [101], [102], [103],
  [104], [105], [106], [107], [108], [109], [110], [111],
  [112], [113], [114], [115], [116], [117], [118], [119],
  [120], [121], [122], [123], [124], [125], [126], [127],
  [194, 128], [194, 129], [194, 130], [194, 131], [194, 132], [194, 133], [194, 134], [194, 135],
  [194, 136], [194, 137], [194, 138], [194, 139], [194, 140], [194, 141], [194, 142], [194, 143],
  [194, 144], [194, 145], [194, 146], [194, 147], [194, 148], [194, 149], [194, 150], [194, 151],
  [194, 152], [194, 153], [194, 154], [194, 155], [194, 156], [194, 157], [194, 158], [194, 159],
  [194, 160], [194, 161], [194, 162], [194, 163], [226, 130, 172], [194, 165], [197, 160], [194, 167],
  [197, 161], [194, 169], [194, 170], [194, 171], [194, 172], [194, 173], [194, 174], [194, 175],
  [194, 176], [194, 177], [194, 178], [194, 179], [197, 189], [194, 181], [194, 182], [194, 183],
  [197, 190], [194, 185], [194, 186], [194, 187], [197, 146], [197, 147], [197, 184], [194, 191],
  [195, 128], [195, 129], [195, 130], [195, 131], [195, 132], [195, 133], [195, 134], [195, 135],
  [195, 136], [195, 137], [195, 138], [195, 139], [195, 140], [195, 141], [195, 142], [195, 143],
  [195, 144], [195, 145], [195, 146], [195, 147], [195, 148], [195, 149], [195, 150], [195, 151],
  [195, 152], [195, 153], [195, 154], [195, 155], [195, 156], [195, 157], [195, 158], [195, 159],
  [195, 160], [195, 161], [195, 162], [195, 163], [195, 164], [195, 165], [195, 166], [195, 167],
  [195, 168], [195, 169], [195, 170], [195, 171], [195, 172], [195, 173], [195, 174], [195, 175],
  [195, 176], [195, 177], [195, 178], [195, 179], [195, 180], [195, 181], [195, 182], [195, 183],
  [195, 184], [195, 185], [195, 186], [195, 187], [195, 188], [195, 189], [195, 190], [195, 191]
]

/-- The tables that `axl_babel_configure_encoding` knows (babel/axl_babel.c:369-427), by the part of
ISO 8859. -/
def tableOf : Nat → Option (List (List UInt8))
  | 1 => some iso8859_1
  | 2 => some iso8859_2
  | 3 => some iso8859_3
  | 4 => some iso8859_4
  | 5 => some iso8859_5
  | 6 => some iso8859_6
  | 7 => some iso8859_7
  | 8 => some iso8859_8
  | 9 => some iso8859_9
  | 15 => some iso8859_15
  | _ => none

/-- `table[value]`: the bytes stored there. -/
def entry (table : List (List UInt8)) (value : UInt8) : List UInt8 := (table[value.toNat]?).getD []

end Babel
end Axl
